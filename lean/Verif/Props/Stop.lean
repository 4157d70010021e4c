import Verif.Lemmas.Stop

/-! # Stopping an experiment server (C99) -/

namespace Verif.Stop
open Res

variable {work : List Byte → Res (List Byte)} {s s' : State}

/-- C99 as claimed: once it has been asked to stop, a server whose answering function does not crash ends (in an orderly way
with every call settled, or because serving failed). -/
def C99_Statement : Prop :=
  ∀ work : List Byte → Res (List Byte), (∀ q, ¬ (work q).isCrash) → ∀ s s', Reach work s → 0 < Spec.asked s →
    Relation.ReflTransGen (Spec.Step work) s s' → Spec.Rest work s' →
    Spec.Fatal s' ∨ s'.pc = .exited ∧ ∀ c ∈ s'.calls, Spec.Settled work c

/-- C99: the process ends in a panic only because of a call on which the answering function panics. A stop causes none. -/
theorem C99_no_crash (h : Reach work s) (hc : s.crashed = true) : ∃ c ∈ s.calls, (work c.query).isCrash :=
  (inv_reach h).panic hc

/-- C99: what a call has returned is what its own query deserves. -/
theorem C99_own (h : Reach work s) (c : Call) (hc : c ∈ s.calls) (hr : c.result ≠ none) :
    (∃ a, work c.query = ok a ∧ c.result = some (ok a)) ∨ ∃ e, work c.query = err e ∧ c.result = some (err e) := by
  cases hr' : c.result with
  | none => exact absurd hr' hr
  | some r =>
    obtain ⟨h1, h2⟩ := (inv_reach h).own c hc r hr'
    subst h1
    cases hw : work c.query with
    | ok a => exact Or.inl ⟨a, rfl, rfl⟩
    | err e => exact Or.inr ⟨e, rfl, rfl⟩
    | crash e => rw [hw] at h2; exact absurd (by simp) h2

/-- C99: a process that has exited has let every call it accepted return, unless the client had given up. -/
theorem C99_exit_settles (h : Reach work s) (hp : s.pc = .exited) (c : Call) (hc : c ∈ s.calls) :
    Spec.Settled work c := by
  rcases (inv_reach h).done (Or.inr (Or.inr hp)) c hc with h1 | h1
  · exact Or.inr (C99_own h c hc h1)
  · exact Or.inl h1

/-- C99: the process cannot go on for ever without new calls, requests or signals. -/
theorem C99_terminates (f : Nat → State) (k : Nat) (hs : ∀ i, i < k → Sys work (f i) (f (i + 1))) :
    k ≤ (f 0).calls.length + (f 0).requests.length + 5 := by
  have key : ∀ m, m ≤ k → m + measure (f m) ≤ measure (f 0) := by
    intro m
    induction m with
    | zero => intro _; omega
    | succ m ih =>
      intro hm
      have := ih (by omega)
      have := measure_sys (hs m (by omega))
      omega
  have h1 := key k (le_refl _)
  have h2 : (f 0).calls.countP (fun c => c.result.isNone) ≤ (f 0).calls.length := List.countP_le_length
  have h3 : (f 0).requests.countP (· = .sending) ≤ (f 0).requests.length := List.countP_le_length
  have h4 : measure (f 0) ≤ (f 0).calls.length + (f 0).requests.length + 5 := by
    unfold measure
    cases (f 0).crashed <;> cases (f 0).pc <;> simp <;> omega
  omega

/-- The process waits for ever for a handler that waits for ever for the process. -/
def Hung (s : State) : Prop :=
  s.crashed = false ∧ s.pc = .shutting ∧ s.signal = true ∧ .sending ∈ s.requests

/-- C99: a process that can do nothing has crashed or ended, is waiting for calls without having been asked to stop, or is
hung, which takes at least three requests to stop, one of them over HTTP. -/
theorem C99_rest (h : Reach work s) (hr : Spec.Rest work s) :
    s.crashed = true ∨ Spec.Fatal s ∨ (s.pc = .exited ∧ ∀ c ∈ s.calls, Spec.Settled work c) ∨
    (s.pc = .waiting ∧ Spec.asked s = 0 ∧ ∀ c ∈ s.calls, c.result ≠ none) ∨
    (Hung s ∧ 3 ≤ Spec.asked s ∧ 1 ≤ s.requests.length ∧ ∀ c ∈ s.calls, Spec.Settled work c) := by
  have hi := inv_reach h
  by_cases hc : s.crashed = true
  · exact Or.inl hc
  have hc : s.crashed = false := by simpa using hc
  refine Or.inr ?_
  by_cases hf : Spec.Fatal s
  · exact Or.inl hf
  refine Or.inr ?_
  by_cases hex : s.pc = .exited
  · exact Or.inl ⟨hex, C99_exit_settles h hex⟩
  refine Or.inr ?_
  have ha : alive s = true := by
    rw [alive_iff]
    exact ⟨hc, hex, fun m hm => hf ⟨m, hm⟩⟩
  have hcalls : ∀ c ∈ s.calls, c.result ≠ none := by
    intro c hcm hcr
    obtain ⟨i, hic⟩ := List.mem_iff_getElem?.mp hcm
    by_cases hw : (work c.query).isCrash
    · exact hr ⟨_, .panics s i c ha hic hcr hw⟩
    · exact hr ⟨_, .answer s i c ha hic hcr hw⟩
  have hreq : s.signal = false → ∀ g ∈ s.requests, g = .returned := by
    intro hsg g hg
    cases g with
    | returned => rfl
    | sending =>
      obtain ⟨i, hic⟩ := List.mem_iff_getElem?.mp hg
      exact absurd ⟨_, .deliver s i ha hic hsg⟩ hr
  cases hp : s.pc with
  | waiting =>
    refine Or.inl ⟨rfl, ?_, hcalls⟩
    have hsg : s.signal = false := by
      by_contra hs
      exact hr ⟨_, .takeSignal s ha hp (by simpa using hs)⟩
    obtain ⟨h1, h2⟩ := hi.kept hsg hp
    have h3 : served s.requests = s.requests.length :=
      List.countP_eq_length.mpr fun g hg => by simpa using hreq hsg g hg
    unfold Spec.asked
    omega
  | draining => exact absurd ⟨_, .drain s ha hp fun c hcm => Or.inl (hcalls c hcm)⟩ hr
  | drained => exact absurd ⟨_, .shut s ha hp⟩ hr
  | shutting =>
    refine Or.inr ?_
    have h1 : ∃ g ∈ s.requests, g ≠ .returned := by
      by_contra hn
      refine hr ⟨_, .exit s ha hp fun g hg => ?_⟩
      by_contra hne
      exact hn ⟨g, hg, hne⟩
    obtain ⟨g, hg, hne⟩ := h1
    have hsg : s.signal = true := by
      by_contra hs
      exact hne (hreq (by simpa using hs) g hg)
    have hg' : g = .sending := by cases g <;> simp_all
    subst hg'
    refine ⟨⟨hc, hp, hsg, hg⟩, ?_, List.length_pos_of_mem hg, fun c hcm => Or.inr (C99_own h c hcm (hcalls c hcm))⟩
    have h2 := hi.count
    rw [hsg, hp] at h2
    have h3 := served_lt hg hne
    simp only [if_true, taken] at h2
    unfold Spec.asked
    omega
  | exited => exact absurd hp hex
  | fatal m => exact absurd ⟨m, hp⟩ hf

/-- C99: a hung process stays hung whatever happens: no signal and no request ends it. -/
theorem C99_hung_for_good (hwk : ∀ q, ¬ (work q).isCrash) (h : Hung s)
    (st : Relation.ReflTransGen (Spec.Step work) s s') : Hung s' := by
  induction st with
  | refl => exact h
  | tail _ st ih =>
    obtain ⟨h1, h2, h3, h4⟩ := ih
    rcases st with st | st
    · cases st with
      | call q ha hp => rw [h2] at hp; cases hp
      | cancel i c ha hc => exact ⟨h1, h2, h3, h4⟩
      | signal ha => exact ⟨h1, h2, rfl, h4⟩
      | request hl => exact ⟨h1, h2, h3, List.mem_append_left _ h4⟩
      | serveFails m ha hn => exact ⟨h1, h2, h3, h4⟩
    · cases st with
      | answer i c ha hc hr hw => exact ⟨h1, h2, h3, h4⟩
      | panics i c ha hc hr hw => exact absurd hw (hwk _)
      | deliver i ha hi hs => rw [h3] at hs; cases hs
      | takeError m ha hp he => rw [h2] at hp; cases hp
      | takeSignal ha hp hs => rw [h2] at hp; cases hp
      | drain ha hp hd => rw [h2] at hp; cases hp
      | shut ha hp => rw [h2] at hp; cases hp
      | exit ha hp hr => exact absurd (hr _ h4) (by simp)

theorem asked_step (h : 0 < Spec.asked s) (st : Spec.Step work s s') : 0 < Spec.asked s' := by
  unfold Spec.asked at *
  rcases st with st | st <;> cases st <;> simp_all

theorem asked_steps (h : 0 < Spec.asked s) (st : Relation.ReflTransGen (Spec.Step work) s s') : 0 < Spec.asked s' := by
  induction st with
  | refl => exact h
  | tail _ st ih => exact asked_step ih st

/-- C99 restricted: a server that is asked to stop, at most twice in all, ends, with every call settled unless serving failed.
Missing from the full claim: more requests to stop, for which it is false. -/
theorem C99_stop_partial (hwk : ∀ q, ¬ (work q).isCrash) (h : Reach work s) (ha : 0 < Spec.asked s)
    (st : Relation.ReflTransGen (Spec.Step work) s s') (hr : Spec.Rest work s') (h2 : Spec.asked s' ≤ 2) :
    Spec.Fatal s' ∨ s'.pc = .exited ∧ ∀ c ∈ s'.calls, Spec.Settled work c := by
  have h' := reach_steps h st
  rcases C99_rest h' hr with h1 | h1 | h1 | h1 | h1
  · obtain ⟨c, -, hc⟩ := C99_no_crash h' h1
    exact absurd hc (hwk _)
  · exact Or.inl h1
  · exact Or.inr h1
  · have := asked_steps ha st
    omega
  · omega

/-- C99 restricted: a server that is asked to stop by signals only, however many, ends, with every call settled unless serving
failed. Missing from the full claim: requests to the HTTP server. -/
theorem C99_signals_partial (hwk : ∀ q, ¬ (work q).isCrash) (h : Reach work s) (ha : 0 < Spec.asked s)
    (st : Relation.ReflTransGen (Spec.Step work) s s') (hr : Spec.Rest work s') (h2 : s'.requests = []) :
    Spec.Fatal s' ∨ s'.pc = .exited ∧ ∀ c ∈ s'.calls, Spec.Settled work c := by
  have h' := reach_steps h st
  rcases C99_rest h' hr with h1 | h1 | h1 | h1 | h1
  · obtain ⟨c, -, hc⟩ := C99_no_crash h' h1
    exact absurd hc (hwk _)
  · exact Or.inl h1
  · exact Or.inr h1
  · have := asked_steps ha st
    omega
  · rw [h2] at h1
    simp at h1

/-- Steps, one after the other. -/
theorem then_env {a b c : State} (h : Relation.ReflTransGen (Spec.Step work) a b) (st : Env b c) :
    Relation.ReflTransGen (Spec.Step work) a c := h.tail (Or.inl st)

theorem then_sys {a b c : State} (h : Relation.ReflTransGen (Spec.Step work) a b) (st : Sys work b c) :
    Relation.ReflTransGen (Spec.Step work) a c := h.tail (Or.inr st)

/-- C99: three requests to the HTTP server, none of them answered yet, can hang the process from any state in which it waits
and whose calls are done: whatever was asked before. -/
theorem C99_three_requests_hang (ha : alive s = true) (hp : s.pc = .waiting) (hs : s.signal = false)
    (hd : ∀ c ∈ s.calls, c.result ≠ none ∨ c.cancelled = true) :
    ∃ s', Relation.ReflTransGen (Spec.Step work) s s' ∧ Hung s' ∧ s'.calls = s.calls ∧ s'.signals = s.signals ∧
      s'.requests.length = s.requests.length + 3 := by
  have hc : s.crashed = false := (alive_iff.mp ha).1
  obtain ⟨calls, requests, pc, signal, serveErr, signals, crashed⟩ := s
  subst hp hs hc
  have t1 := then_env (work := work) .refl (.request ⟨calls, requests, .waiting, false, serveErr, signals, false⟩ rfl)
  have t2 := then_env t1 (.request _ rfl)
  have t3 := then_env t2 (.request _ rfl)
  have t4 := then_sys t3 (.deliver _ requests.length rfl (by simp) rfl)
  have t5 := then_sys t4 (.takeSignal _ rfl rfl rfl)
  have t6 := then_sys t5 (.drain _ rfl rfl hd)
  have t7 := then_sys t6 (.deliver _ (requests.length + 1) rfl (by simp) rfl)
  have t8 := then_sys t7 (.shut _ rfl rfl)
  refine ⟨_, t8, ⟨rfl, rfl, rfl, ?_⟩, rfl, rfl, by simp⟩
  refine List.mem_iff_getElem?.mpr ⟨requests.length + 2, ?_⟩
  simp

/-- C99 as claimed is false: of three requests to stop, the last one is never answered, and the server waits for it. -/
theorem C99_refuted : ¬ C99_Statement := by
  intro h
  have hwk : ∀ q : List Byte, ¬ (ok q : Res (List Byte)).isCrash := fun q => by simp
  have g1 := Reach.env _ _ (Reach.start (work := fun q => ok q)) (.request start rfl)
  have t2 := then_env (work := fun q => ok q) .refl (.request { start with requests := [.sending] } rfl)
  have t3 := then_env t2 (.request _ rfl)
  have t4 := then_sys t3 (.deliver _ 0 rfl (by simp) rfl)
  have t5 := then_sys t4 (.takeSignal _ rfl rfl rfl)
  have t6 := then_sys t5 (.drain _ rfl rfl (by simp [start]))
  have t7 := then_sys t6 (.deliver _ 1 rfl (by simp) rfl)
  have t8 := then_sys t7 (.shut _ rfl rfl)
  have hr : Spec.Rest (fun q => ok q) (⟨[], [.returned, .returned, .sending], .shutting, true, none, 0, false⟩ : State) := by
    rintro ⟨s', st⟩
    cases st with
    | answer i c ha hc hr hw => simp at hc
    | panics i c ha hc hr hw => simp at hc
    | deliver i ha hi hs => simp at hs
    | takeError m ha hp he => cases hp
    | takeSignal ha hp hs => cases hp
    | drain ha hp hd => cases hp
    | shut ha hp => cases hp
    | exit ha hp hr => exact absurd (hr .sending (by simp)) (by simp)
  rcases h (fun q => ok q) hwk _ _ g1 (by simp [Spec.asked, start]) t8 hr with ⟨m, hm⟩ | ⟨hm, -⟩
  · cases hm
  · cases hm

/-! ### Cases -/

/-- A whole life: a call, a request to stop, the answer, the end. -/
example : ∃ s, Reach (fun q => ok (q ++ [7])) s ∧ s.pc = .exited ∧ s.calls = [⟨[1], some (ok [1, 7]), false⟩] ∧
    Spec.asked s = 1 := by
  have g1 := Reach.env _ _ (Reach.start (work := fun q => ok (q ++ [7]))) (.call start [1] rfl rfl)
  have g2 := Reach.env _ _ g1 (.request _ rfl)
  have g3 := Reach.sys _ _ g2 (.deliver _ 0 rfl rfl rfl)
  have g4 := Reach.sys _ _ g3 (.takeSignal _ rfl rfl rfl)
  have g5 := Reach.sys _ _ g4 (.answer _ 0 ⟨[1], none, false⟩ rfl rfl rfl (by simp))
  have g6 := Reach.sys _ _ g5 (.drain _ rfl rfl (by simp [start]))
  have g7 := Reach.sys _ _ g6 (.shut _ rfl rfl)
  have g8 := Reach.sys _ _ g7 (.exit _ rfl rfl (by simp [start]))
  exact ⟨_, g8, rfl, rfl, rfl⟩

/-- The hypotheses of `C99_stop_partial` are met with a call in flight, and by a stop asked for by a signal. -/
example : ∃ s s', Reach (fun q => ok q) s ∧ 0 < Spec.asked s ∧
    Relation.ReflTransGen (Spec.Step fun q => ok q) s s' ∧ Spec.Rest (fun q => ok q) s' ∧ Spec.asked s' ≤ 2 ∧
    s.calls = [⟨[1], none, false⟩] := by
  have g1 := Reach.env _ _ (Reach.start (work := fun q => ok q)) (.call start [1] rfl rfl)
  have g2 := Reach.env _ _ g1 (.signal _ rfl)
  have t4 := then_sys (work := fun q => ok q) .refl
    (.takeSignal (⟨[⟨[1], none, false⟩], [], .waiting, true, none, 1, false⟩ : State) rfl rfl rfl)
  have t5 := then_sys t4 (.answer _ 0 ⟨[1], none, false⟩ rfl rfl rfl (by simp))
  have t6 := then_sys t5 (.drain _ rfl rfl (by simp))
  have t7 := then_sys t6 (.shut _ rfl rfl)
  have t8 := then_sys t7 (.exit _ rfl rfl (by simp))
  refine ⟨_, _, g2, by simp [Spec.asked], t8, ?_, by simp [Spec.asked], rfl⟩
  rintro ⟨s', st⟩
  cases st <;> simp_all [alive]

/-- A failure of `Serve` ends the process at once and loses the calls that are being answered. -/
example : ∃ s, Reach (fun q => ok q) s ∧ s.pc = .fatal "failed to serve: accept" ∧ s.calls = [⟨[1], none, false⟩] := by
  have g1 := Reach.env _ _ (Reach.start (work := fun q => ok q)) (.call start [1] rfl rfl)
  have g2 := Reach.env _ _ g1 (.serveFails _ "accept" rfl rfl)
  have g3 := Reach.sys _ _ g2 (.takeError _ "accept" rfl rfl rfl)
  exact ⟨_, g3, rfl, rfl⟩

end Verif.Stop
