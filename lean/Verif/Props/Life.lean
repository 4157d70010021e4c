import Verif.Lemmas.Life
import Mathlib.Logic.Relation

/-! # The life of a server process (C77) -/

namespace Verif.Life
open Res

variable {work : List Byte → Res (List Byte)} {s s' : State}

/-! ### Notifications -/

/-- C77: `SdNotify` has the three outcomes its comment lists, and the message is sent exactly in the last one. Without the
request to unset it, the variable is left alone. -/
theorem C77_notify (k : Socket) (st : String) (hd : ¬ k.dial.isCrash) (hw : ¬ k.write.isCrash) :
    (k.env.getD "" = "" ∧ sdNotify k false st = (ok false, k.env, [])) ∨
    (k.env.getD "" ≠ "" ∧ ∃ m, (k.dial = err m ∨ k.dial = ok () ∧ k.write = err m) ∧
      sdNotify k false st = (err m, k.env, [])) ∨
    (k.env.getD "" ≠ "" ∧ k.dial = ok () ∧ k.write = ok () ∧ sdNotify k false st = (ok true, k.env, [st])) := by
  obtain ⟨env, unset, dial, write⟩ := k
  by_cases he : env.getD "" = ""
  · exact Or.inl ⟨he, by simp [sdNotify, he]⟩
  refine Or.inr ?_
  cases dial with
  | ok u =>
    cases write with
    | ok v => exact Or.inr ⟨he, rfl, rfl, by simp [sdNotify, he]⟩
    | err m => exact Or.inl ⟨he, m, Or.inr ⟨rfl, rfl⟩, by simp [sdNotify, he]⟩
    | crash m => exact absurd (by simp) hw
  | err m => exact Or.inl ⟨he, m, Or.inl rfl, by simp [sdNotify, he]⟩
  | crash m => exact absurd (by simp) hd

/-- C77: asked to unset the variable, `SdNotify` does so whenever it had a value and unsetting works, whatever happens to the
message. -/
theorem C77_notify_unset (k : Socket) (st : String) (he : k.env.getD "" ≠ "") (hu : k.unset = ok ()) :
    (sdNotify k true st).2.1 = none ∧ (sdNotify k true st).2.2 = (sdNotify k false st).2.2 ∧
    (sdNotify k true st).1 = (sdNotify k false st).1 := by
  obtain ⟨env, unset, dial, write⟩ := k
  cases hu
  simp only at he
  cases dial <;> cases write <;> simp [sdNotify, he]

/-- The comment of `SdNotify` says that the variable is unset unconditionally. A variable that is set to the empty string
stays. -/
theorem C77_notify_keeps_empty (unset dial write : Res Unit) (st : String) :
    sdNotify ⟨some "", unset, dial, write⟩ true st = (ok false, some "", []) := by
  simp [sdNotify]

example : sdNotify ⟨some "/run/systemd/notify", ok (), ok (), ok ()⟩ false ready =
    (ok true, some "/run/systemd/notify", ["READY=1"]) := by decide +kernel

/-! ### The process -/

/-- C77: what happens to the calls in the life of the process is what happens to them in the model of C44, C45 and C76. -/
theorem C77_refines_rpc (h : Reach work s) : Rpc.Reach work s.rpc := (inv_reach h).rpc

/-- C77: the service manager is told at most that the process is ready and then that it stops, each at most once, and in this
order. -/
theorem C77_told (h : Reach work s) :
    s.told = [] ∨ s.told = ["READY=1"] ∨ s.told = ["STOPPING=1"] ∨ s.told = ["READY=1", "STOPPING=1"] := by
  have := (inv_reach h).told
  unfold ToldOk at this
  split at this
  · exact Or.inl this
  · obtain ⟨a, b, hl, ha, hb⟩ := this
    rcases ha with ha | ha <;> rcases hb with hb | hb <;> subst ha <;> subst hb <;> rw [hl] <;>
      simp [ready, stopping]
  · rcases this with this | this
    · exact Or.inl this
    · exact Or.inr (Or.inl this)

/-- C77: the service manager is told that the process is ready only by a process that accepts calls. -/
theorem C77_ready_means_ready (h : Reach work s) (st : Spec.Step work s s') (h0 : "READY=1" ∉ s.told)
    (h1 : "READY=1" ∈ s'.told) : accepting s' = true := by
  have hi := inv_reach h
  rcases st with st | st
  · cases st <;> exact absurd h1 h0
  cases st with
  | rpc r ha st => exact absurd h1 h0
  | ready k b ha hp hk =>
    rw [alive_iff] at ha
    rw [accepting_iff]
    exact ⟨ha.1, Or.inr (Or.inl rfl)⟩
  | readyFails k m ha hp hk =>
    exfalso
    have : (sdNotify k false ready).2.2 = [] := by
      revert hk
      unfold sdNotify
      repeat' split
      all_goals simp
    rw [this, List.append_nil] at h1
    exact h0 h1
  | takeError m ha hp he => exact absurd h1 h0
  | takeSignal ha hp hs => exact absurd h1 h0
  | close ha hp => exact absurd h1 h0
  | refuse ha hp => exact absurd h1 h0
  | drain ha hp hr => exact absurd h1 h0
  | exit k ha hp =>
    exfalso
    rcases List.mem_append.mp h1 with h1 | h1
    · exact h0 h1
    · rcases sdNotify_sent k false stopping with h2 | h2 <;> rw [h2] at h1 <;> simp [stopping] at h1

/-- C77: a process that has exited has let every call it accepted return, and each call whose context did not end got the
answer or the error its own query deserves. -/
theorem C77_exit_settles (h : Reach work s) (hp : s.pc = .exited) (c : Rpc.Call) (hc : c ∈ s.rpc.calls) :
    Spec.Settled work c := by
  have hi := inv_reach h
  obtain ⟨r, hr⟩ := hi.returned (Or.inr hp) c hc
  exact settled_of_returned hi.rpc hc hr

/-- C77: the service manager is told that the process stops only at the very end: no call is open and none is accepted any
more, and the main goroutine is done. (The comment of the message says: "is beginning its shutdown".) -/
theorem C77_stopping_told_last (h : Reach work s) (ht : "STOPPING=1" ∈ s.told) :
    s.pc = .exited ∧ alive s = false ∧ ∀ c ∈ s.rpc.calls, Spec.Settled work c := by
  have hp : s.pc = .exited := by
    by_contra hp
    have := (inv_reach h).told
    unfold ToldOk at this
    split at this
    · rw [this] at ht; simp at ht
    · exact hp ‹_›
    · rcases this with this | this <;> rw [this] at ht <;> simp [ready] at ht
  refine ⟨hp, ?_, C77_exit_settles h hp⟩
  simp [alive, hp]

/-- C77: the process cannot go on for ever without new calls or signals. -/
theorem C77_terminates (f : Nat → State) (k : Nat) (h0 : Reach work (f 0))
    (hs : ∀ i, i < k → Sys work (f i) (f (i + 1))) : k ≤ 4 * (f 0).rpc.calls.length + 29 := by
  have key : ∀ m, m ≤ k → m + (Rpc.measure (f m).rpc + rank (f m).pc) ≤ Rpc.measure (f 0).rpc + rank (f 0).pc := by
    intro m
    induction m with
    | zero => intro _; omega
    | succ m ih =>
      intro hm
      have := ih (by omega)
      have := measure_sys (hs m (by omega))
      omega
  have h1 := key k (le_refl _)
  have hroom := (Rpc.inv_reach (C77_refines_rpc h0)).room
  have hsum : ∀ l : List Rpc.Call, (l.map Rpc.callCost).sum ≤ 4 * l.length := by
    intro l
    induction l with
    | nil => simp
    | cons c l ih =>
      have : Rpc.callCost c ≤ 4 := by unfold Rpc.callCost; split <;> omega
      simp only [List.map_cons, List.sum_cons, List.length_cons]
      omega
  have h2 : Rpc.measure (f 0).rpc + rank (f 0).pc ≤ 4 * (f 0).rpc.calls.length + 29 := by
    have h3 := hsum (f 0).rpc.calls
    have h4 : Rpc.workerCost (f 0).rpc.worker ≤ 2 := by cases (f 0).rpc.worker <;> simp [Rpc.workerCost]
    have h5 : (if (f 0).rpc.crashed then 0 else 1) ≤ 1 := by split <;> omega
    have h6 : rank (f 0).pc ≤ 6 := by cases (f 0).pc <;> simp [rank]
    unfold Rpc.measure Rpc.capacity at *
    omega
  omega

/-- C77: a process that can do nothing has crashed, has ended by `log.Fatalf`, has exited, or is waiting for calls and
signals with every call returned. In particular the stop does not hang. -/
theorem C77_rest (h : Reach work s) (hr : Spec.Rest work s) :
    s.rpc.crashed = true ∨ Spec.Fatal s ∨ s.pc = .exited ∨
    (s.pc = .waiting ∧ s.signal = false ∧ s.serveErr = none ∧ ∀ c ∈ s.rpc.calls, Spec.Settled work c) := by
  have hi := inv_reach h
  by_cases hc : s.rpc.crashed = true
  · exact Or.inl hc
  have hc : s.rpc.crashed = false := by simpa using hc
  refine Or.inr ?_
  by_cases hex : s.pc = .exited
  · exact Or.inr (Or.inl hex)
  by_cases hf : Spec.Fatal s
  · exact Or.inl hf
  have ha : alive s = true := by
    rw [alive_iff]
    exact ⟨hc, hex, fun m hm => hf ⟨m, hm⟩⟩
  have hrest : ¬ ∃ r', Rpc.Sys work s.rpc r' := fun ⟨r', st⟩ => hr ⟨_, .rpc s r' ha st⟩
  refine Or.inr (Or.inr ?_)
  cases hp : s.pc with
  | starting => exact absurd ⟨_, .ready s ⟨none, ok (), ok (), ok ()⟩ false ha hp (by simp [sdNotify])⟩ hr
  | waiting =>
    have hs : s.signal = false := by
      by_contra hs
      exact hr ⟨_, .takeSignal s ha hp (by simpa using hs)⟩
    have he : s.serveErr = none := by
      cases he : s.serveErr with
      | none => rfl
      | some m => exact absurd ⟨_, .takeError s m ha hp he⟩ hr
    refine ⟨rfl, hs, he, ?_⟩
    intro c hcm
    obtain ⟨i, hic⟩ := List.mem_iff_getElem?.mp hcm
    have hcl : s.rpc.closed = false := by
      have := hi.closed
      rw [hp] at this
      simpa [Closing] using this
    exact Rpc.C44_all_return hi.rpc hc hcl hrest i c hic
  | signalled => exact absurd ⟨_, .close s ha hp⟩ hr
  | closed => exact absurd ⟨_, .refuse s ha hp⟩ hr
  | draining =>
    have hcl : s.rpc.closed = true := hi.closed.mpr (by rw [hp]; trivial)
    exact absurd ⟨_, .drain s ha hp (returned_of_rest hi.rpc hcl hc hrest)⟩ hr
  | drained => exact absurd ⟨_, .exit s ⟨none, ok (), ok (), ok ()⟩ ha hp⟩ hr
  | exited => exact absurd hp hex
  | fatal m => exact absurd ⟨m, hp⟩ hf

/-- A signal is pending or has been received, or the process has ended. -/
def Called (s : State) : Prop := s.signal = true ∨ ¬ (s.pc = .starting ∨ s.pc = .waiting)

theorem called_step (h : Called s) (st : Spec.Step work s s') : Called s' := by
  unfold Called at *
  rcases st with st | st
  · cases st with
    | arrive q ha => exact h
    | cancel i c ha hc => exact h
    | signal ha => exact Or.inl rfl
    | serveFails m ha hn => exact h
  · cases st with
    | rpc r ha st => exact h
    | ready k b ha hp hk => rw [hp] at h; exact Or.inl (by simpa using h)
    | readyFails k m ha hp hk => exact Or.inr (by simp)
    | takeError m ha hp he => exact Or.inr (by simp)
    | takeSignal ha hp hs => exact Or.inr (by simp)
    | close ha hp => exact Or.inr (by simp)
    | refuse ha hp => exact Or.inr (by simp)
    | drain ha hp hr => exact Or.inr (by simp)
    | exit k ha hp => exact Or.inr (by simp)

theorem called_steps (h : Called s) (st : Relation.ReflTransGen (Spec.Step work) s s') : Called s' := by
  induction st with
  | refl => exact h
  | tail _ st ih => exact called_step ih st

theorem reach_steps (h : Reach work s) (hs : Relation.ReflTransGen (Spec.Step work) s s') : Reach work s' := by
  induction hs with
  | refl => exact h
  | tail _ st ih =>
    rcases st with st | st
    · exact .env _ _ ih st
    · exact .sys _ _ ih st

/-- C77 as claimed: after a signal, a server whose answering function does not crash ends in an orderly way (or because
serving or the notification failed), with every call it accepted settled. -/
def C77_Statement : Prop :=
  ∀ work : List Byte → Res (List Byte), (∀ q, ¬ (work q).isCrash) → ∀ s s', Reach work s → s.signal = true →
    Relation.ReflTransGen (Spec.Step work) s s' → Spec.Rest work s' →
    Spec.Fatal s' ∨ s'.pc = .exited ∧ ∀ c ∈ s'.rpc.calls, Spec.Settled work c

/-- A socket of no service manager. -/
def noSocket : Socket := ⟨none, ok (), ok (), ok ()⟩

/-- The state of `C77_refuted`: one call is in the channel, another has just been accepted, and a signal has come. -/
def busyState : State :=
  ⟨⟨[⟨[1], .waiting, false, none, none⟩, ⟨[2], .sending, false, none, none⟩], [0], .idle, false, false, [0], []⟩,
    .waiting, true, none, []⟩

theorem busyState_reach : Reach (fun q => ok q) busyState := by
  have g1 := Reach.sys _ _ (Reach.start (work := fun q => ok q)) (.ready start noSocket false rfl rfl rfl)
  have g2 := Reach.env _ _ g1 (.arrive _ [1] rfl)
  have g3 := Reach.sys _ _ g2 (.rpc _ _ rfl (.send _ 0 (Rpc.newCall [1]) rfl rfl rfl rfl
    (by simp [start, Rpc.start, Rpc.capacity])))
  have g4 := Reach.env _ _ g3 (.arrive _ [2] rfl)
  exact Reach.env _ _ g4 (.signal _ rfl)

/-- C77 as claimed is false: the channel is closed while calls are still accepted, and a call that is not yet in the channel
then ends the process in a panic, here with the call of another client unanswered. -/
theorem C77_refuted : ¬ C77_Statement := by
  intro h
  have t1 := (Relation.ReflTransGen.refl (r := Spec.Step (fun q => ok q)) (a := busyState)).tail
    (Or.inr (.takeSignal _ rfl rfl rfl))
  have t2 := t1.tail (Or.inr (.close _ rfl rfl))
  have t3 := t2.tail (Or.inr (.rpc _ _ rfl (.sendClosed _ 1 ⟨[2], .sending, false, none, none⟩ rfl rfl rfl rfl)))
  have hdead : ∀ s : State, alive s = false → Spec.Rest (fun q => ok q) s := by
    rintro s hs ⟨s', st⟩
    cases st <;> simp_all
  rcases h (fun q => ok q) (fun q => by simp) _ _ busyState_reach rfl t3 (hdead _ rfl) with ⟨m, hm⟩ | ⟨hm, -⟩
  · cases hm
  · cases hm

/-- C77 restricted: after a signal, a server whose answering function does not crash ends in an orderly way with every call
settled, or because serving or the notification failed, or because of a late call. Missing from the full claim: late calls,
for which it is false. -/
theorem C77_stop_partial (hwk : ∀ q, ¬ (work q).isCrash) (h : Reach work s) (hs : s.signal = true)
    (st : Relation.ReflTransGen (Spec.Step work) s s') (hr : Spec.Rest work s') :
    (s'.rpc.crashed = true ∧ s'.rpc.closed = true ∧ ∃ c ∈ s'.rpc.calls, c.status = .sending) ∨
    Spec.Fatal s' ∨ s'.pc = .exited ∧ ∀ c ∈ s'.rpc.calls, Spec.Settled work c := by
  have h' := reach_steps h st
  rcases C77_rest h' hr with h1 | h1 | h1 | h1
  · obtain ⟨h2, i, c, h3, h4⟩ := Rpc.C45_only_late_calls_partial (C77_refines_rpc h') hwk h1
    exact Or.inl ⟨h1, h2, c, List.mem_of_getElem? h3, h4⟩
  · exact Or.inr (Or.inl h1)
  · exact Or.inr (Or.inr ⟨h1, C77_exit_settles h' h1⟩)
  · exfalso
    rcases called_steps (Or.inl hs : Called s) st with h2 | h2
    · rw [h1.2.1] at h2; cases h2
    · exact h2 (Or.inr h1.1)

/-- A step during which no call arrives. -/
def Quiet (work : List Byte → Res (List Byte)) (s s' : State) : Prop :=
  Spec.Step work s s' ∧ s'.rpc.calls.length = s.rpc.calls.length

/-- The signal has been received, and every call is in the channel or further. -/
def Orderly (s : State) : Prop :=
  ¬ (s.pc = .starting ∨ s.pc = .waiting) ∧ ¬ Spec.Fatal s ∧ ∀ c ∈ s.rpc.calls, c.status ≠ .sending

theorem orderly_rpc {t r : Rpc.State} (h : ∀ c ∈ t.calls, c.status ≠ .sending) (st : Rpc.Sys work t r) :
    ∀ c ∈ r.calls, c.status ≠ .sending := by
  have keep : ∀ {i : Nat} {c d : Rpc.Call}, t.calls[i]? = some c → (d.status = c.status ∨ d.status ≠ .sending) →
      ∀ e ∈ t.calls.set i d, e.status ≠ .sending := by
    intro i c d hc hd e he
    rcases List.mem_or_eq_of_mem_set he with he | he
    · exact h e he
    · subst he
      rcases hd with hd | hd
      · rw [hd]; exact h c (List.mem_of_getElem? hc)
      · exact hd
  cases st with
  | send i c hc hic hst hcl hq => exact keep hic (Or.inr (by simp))
  | sendClosed i c hc hic hst hcl => exact h
  | take i rest hc hw hq => exact h
  | exit hc hw hq hcl => exact h
  | answer i c a hc hw hic hwk hch => exact keep hic (Or.inl rfl)
  | fail i c e hc hw hic hwk hch => exact keep hic (Or.inl rfl)
  | panics i c e hc hw hic hwk => exact h
  | recvAnswer i c a hc hic hst hch => exact keep hic (Or.inr (by simp))
  | recvError i c e hc hic hst hch => exact keep hic (Or.inr (by simp))
  | recvDone i c hc hic hst hcd => exact keep hic (Or.inr (by simp))

theorem orderly_step (h : Orderly s) (st : Quiet work s s') : Orderly s' := by
  obtain ⟨h1, h2, h3⟩ := h
  obtain ⟨st, hl⟩ := st
  rcases st with st | st
  · cases st with
    | arrive q ha => simp at hl
    | cancel i c ha hc =>
      refine ⟨h1, h2, ?_⟩
      intro d hd
      rcases List.mem_or_eq_of_mem_set hd with hd | hd
      · exact h3 d hd
      · subst hd; exact h3 c (List.mem_of_getElem? hc)
    | signal ha => exact ⟨h1, h2, h3⟩
    | serveFails m ha hn => exact ⟨h1, h2, h3⟩
  · cases st with
    | rpc r ha st => exact ⟨h1, h2, orderly_rpc h3 st⟩
    | ready k b ha hp hk => exact absurd (Or.inl hp) h1
    | readyFails k m ha hp hk => exact absurd (Or.inl hp) h1
    | takeError m ha hp he => exact absurd (Or.inr hp) h1
    | takeSignal ha hp hs => exact absurd (Or.inr hp) h1
    | close ha hp => exact ⟨by simp, by simp [Spec.Fatal], h3⟩
    | refuse ha hp => exact ⟨by simp, by simp [Spec.Fatal], h3⟩
    | drain ha hp hr => exact ⟨by simp, by simp [Spec.Fatal], h3⟩
    | exit k ha hp => exact ⟨by simp, by simp [Spec.Fatal], h3⟩

/-- C77 restricted: if all calls are in the channel when the main goroutine receives the signal and none arrives afterwards,
the process exits in an orderly way with every call settled, whatever else happens. -/
theorem C77_orderly_partial (hwk : ∀ q, ¬ (work q).isCrash) (h : Reach work s) (ho : Orderly s)
    (st : Relation.ReflTransGen (Quiet work) s s') (hr : Spec.Rest work s') :
    s'.rpc.crashed = false ∧ s'.pc = .exited ∧ ∀ c ∈ s'.rpc.calls, Spec.Settled work c := by
  have ho' : Orderly s' := by
    clear hr
    induction st with
    | refl => exact ho
    | tail _ st ih => exact orderly_step ih st
  have h' : Reach work s' := by
    clear hr ho'
    induction st with
    | refl => exact h
    | tail _ st ih => exact reach_steps ih (.single st.1)
  have hc : s'.rpc.crashed = false := by
    by_contra hc
    obtain ⟨-, i, c, h3, h4⟩ := Rpc.C45_only_late_calls_partial (C77_refines_rpc h') hwk (by simpa using hc)
    exact ho'.2.2 c (List.mem_of_getElem? h3) h4
  refine ⟨hc, ?_⟩
  rcases C77_rest h' hr with h1 | h1 | h1 | h1
  · rw [hc] at h1; cases h1
  · exact absurd h1 ho'.2.1
  · exact ⟨h1, C77_exit_settles h' h1⟩
  · exact absurd (Or.inr h1.1) ho'.1

/-- A failure of `Serve` ends the process at once: the open calls of all clients are lost, the service manager is told nothing
about the end, and nothing follows. -/
theorem C77_serve_failure_loses_calls (h : Reach work s) (ha : alive s = true) (hp : s.pc = .waiting)
    (he : s.serveErr = none) (m : String) :
    ∃ s', Relation.ReflTransGen (Spec.Step work) s s' ∧ s'.pc = .fatal ("failed to serve: " ++ m) ∧
      s'.rpc = s.rpc ∧ "STOPPING=1" ∉ s'.told ∧ alive s' = false := by
  have hacc : accepting s = true := by
    rw [accepting_iff]
    exact ⟨(alive_iff.mp ha).1, Or.inr (Or.inl hp)⟩
  have t1 := (Relation.ReflTransGen.refl (r := Spec.Step work) (a := s)).tail (Or.inl (.serveFails s m hacc he))
  have t2 := t1.tail (Or.inr (.takeError _ m (by simpa [alive] using ha) hp rfl))
  refine ⟨_, t2, rfl, rfl, ?_, by simp [alive]⟩
  intro ht
  have := (C77_stopping_told_last (reach_steps h t2) ht).1
  cases this

/-- A service manager that cannot be reached ends a server that serves calls already: the calls are lost. -/
theorem C77_ready_failure_loses_calls (ha : alive s = true) (hp : s.pc = .starting) (k : Socket)
    (hk : k.env.getD "" ≠ "") (m : String) (hd : k.dial = err m) :
    ∃ s', Sys work s s' ∧ s'.pc = .fatal ("failed to sdnotify: " ++ m) ∧ s'.rpc = s.rpc ∧ s'.told = s.told ∧
      alive s' = false := by
  have h1 : sdNotify k false ready = (err m, k.env, []) := by simp [sdNotify, hk, hd]
  exact ⟨_, .readyFails s k m ha hp (by rw [h1]), rfl, rfl, by simp [h1], by simp [alive]⟩

/-! ### Cases -/

/-- A whole life: ready, a call, a signal, the answer, the end. -/
theorem life_example : ∃ s, Reach (fun q => ok (q ++ [7])) s ∧ s.pc = .exited ∧ s.told = ["READY=1", "STOPPING=1"] ∧
    s.rpc.calls.map Rpc.Call.status = [.returned (.answer [1, 7])] := by
  have g1 := Reach.sys _ _ (Reach.start (work := fun q => ok (q ++ [7])))
    (.ready start ⟨some "/run/n", ok (), ok (), ok ()⟩ true rfl rfl (by decide +kernel))
  have g2 := Reach.env _ _ g1 (.arrive _ [1] rfl)
  have g3 := Reach.sys _ _ g2 (.rpc _ _ rfl (.send _ 0 (Rpc.newCall [1]) rfl rfl rfl rfl
    (by simp [start, Rpc.start, Rpc.capacity])))
  have g4 := Reach.env _ _ g3 (.signal _ rfl)
  have g5 := Reach.sys _ _ g4 (.takeSignal _ rfl rfl rfl)
  have g6 := Reach.sys _ _ g5 (.close _ rfl rfl)
  have g7 := Reach.sys _ _ g6 (.rpc _ _ rfl (.take _ 0 [] rfl rfl rfl))
  have g8 := Reach.sys _ _ g7 (.refuse _ rfl rfl)
  have g9 := Reach.sys _ _ g8 (.rpc _ _ rfl (.answer _ 0 ⟨[1], .waiting, false, none, none⟩ [1, 7] rfl rfl rfl rfl rfl))
  have g10 := Reach.sys _ _ g9 (.rpc _ _ rfl
    (.recvAnswer _ 0 ⟨[1], .waiting, false, some [1, 7], none⟩ [1, 7] rfl rfl rfl rfl))
  have g11 := Reach.sys _ _ g10 (.drain _ rfl rfl (by
    intro c hc
    simp [start, Rpc.start] at hc
    exact ⟨_, by rw [hc]⟩))
  have g12 := Reach.sys _ _ g11 (.exit _ ⟨some "/run/n", ok (), ok (), ok ()⟩ rfl rfl)
  refine ⟨_, g12, rfl, ?_, rfl⟩
  decide +kernel

/-- The hypotheses of `C77_orderly_partial` are met by a process with a call in its channel. -/
example : ∃ s, Reach (fun q => ok q) s ∧ Orderly s ∧ s.rpc.queue = [0] ∧ alive s = true := by
  have g1 := Reach.sys _ _ (Reach.start (work := fun q => ok q)) (.ready start noSocket false rfl rfl rfl)
  have g2 := Reach.env _ _ g1 (.arrive _ [1] rfl)
  have g3 := Reach.sys _ _ g2 (.rpc _ _ rfl (.send _ 0 (Rpc.newCall [1]) rfl rfl rfl rfl
    (by simp [start, Rpc.start, Rpc.capacity])))
  have g4 := Reach.env _ _ g3 (.signal _ rfl)
  have g5 := Reach.sys _ _ g4 (.takeSignal _ rfl rfl rfl)
  refine ⟨_, g5, ⟨by simp, by simp [Spec.Fatal], ?_⟩, rfl, rfl⟩
  intro c hc
  simp [start, Rpc.start] at hc
  rw [hc]
  simp

/-- Calls are accepted before the service manager is told. -/
example : ∃ s, Reach (fun q => ok q) s ∧ s.pc = .starting ∧ alive s = true ∧
    s.rpc.calls.map Rpc.Call.status = [.waiting] := by
  have g1 := Reach.env _ _ (Reach.start (work := fun q => ok q)) (.arrive _ [1] rfl)
  have g2 := Reach.sys _ _ g1 (.rpc _ _ rfl (.send _ 0 (Rpc.newCall [1]) rfl rfl rfl rfl
    (by simp [start, Rpc.start, Rpc.capacity])))
  exact ⟨_, g2, rfl, rfl, rfl⟩

end Verif.Life
