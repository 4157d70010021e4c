import Verif.Lemmas.SharedRun
import Verif.Props.Fss

/-! # C75: queries handled at the same time, and one after the other, by a predicate server -/

namespace Verif.Shared
open Res Verif.Field Verif.Fss Verif.Fss.Spec Verif.Query Verif.Predicate Verif.Shared.Spec

/-- C75 as claimed: whatever queries a predicate server handles at the same time, and however their goroutines are
scheduled, each gets the answer it would get alone. -/
def C75_Statement : Prop :=
  ∀ (S : Server) (m : Mem) (rs : List Request) (sched : List Nat) (j : Nat) (r : Request) (a : Res (List U32))
    (buf : List Byte), S.n < 20 → Rested S.n m → (∀ r ∈ rs, Ciphers r) → BufferReady S.n buf →
    (S.run sched (S.init m rs)).dead = false →
    (S.run sched (S.init m rs)).threads[j]? = some (r, .returned a) → Same a (S.alone buf r)

/-- C75 restricted: the claim holds under schedules in which no two calls of `EvaluatePF` overlap, whatever the queries
and whatever was computed before. Missing from the full claim: the other schedules, for which it is false. -/
theorem C75_apart_partial (S : Server) (m : Mem) (rs : List Request) (sched : List Nat) (j : Nat) (r : Request)
    (a : Res (List U32)) (buf : List Byte) (hn : S.n < 20) (hm : Rested S.n m) (hc : ∀ r ∈ rs, Ciphers r)
    (hb : BufferReady S.n buf) (hs : Apart S sched (S.init m rs))
    (hj : (S.run sched (S.init m rs)).threads[j]? = some (r, .returned a)) : Same a (S.alone buf r) := by
  obtain ⟨h1, h2⟩ := (inv_run hn sched (inv_init hm hc) hs).good j r _ hj
  rw [← val_alone hn h1 hb]
  exact h2

/-- The requests themselves do not change. -/
theorem requests_kept (S : Server) (sched : List Nat) (s : State) :
    (S.run sched s).threads.map Prod.fst = s.threads.map Prod.fst := by
  induction sched generalizing s with
  | nil => rfl
  | cons i is ih =>
    show (S.run is (S.step i s)).threads.map Prod.fst = _
    rw [ih]
    unfold Server.step
    split
    · rfl
    · split
      · rfl
      · rename_i r t h
        simp only [List.map_set]
        refine List.ext_getElem? fun k => ?_
        rw [List.getElem?_set]
        split
        · rename_i hk
          subst hk
          rw [List.getElem?_map, h]
          have := (List.getElem?_eq_some_iff.mp h).1
          simp [this]
        · rfl

/-- C75: goroutine `j` works on request `j`. -/
theorem C75_own_request (S : Server) (m : Mem) (rs : List Request) (sched : List Nat) (j : Nat) (r : Request) (t : Thread)
    (hj : (S.run sched (S.init m rs)).threads[j]? = some (r, t)) : rs[j]? = some r := by
  have h := requests_kept S sched (S.init m rs)
  have h1 : ((S.run sched (S.init m rs)).threads.map Prod.fst)[j]? = some r := by rw [List.getElem?_map, hj]; rfl
  rw [h] at h1
  simpa [Server.init, List.map_map, Function.comp_def] using h1

/-- C75: under such schedules the process ends only because of a query that ends it also when it is alone. -/
theorem C75_apart_dead (S : Server) (m : Mem) (rs : List Request) (sched : List Nat) (buf : List Byte) (hn : S.n < 20)
    (hm : Rested S.n m) (hc : ∀ r ∈ rs, Ciphers r) (hb : BufferReady S.n buf) (hs : Apart S sched (S.init m rs))
    (hd : (S.run sched (S.init m rs)).dead = true) : ∃ r ∈ rs, (S.alone buf r).isCrash := by
  unfold State.dead at hd
  rw [List.any_eq_true] at hd
  obtain ⟨⟨r, t⟩, hmem, ht⟩ := hd
  obtain ⟨j, hj, hjt⟩ := List.getElem_of_mem hmem
  have hj' : (S.run sched (S.init m rs)).threads[j]? = some (r, t) := by rw [List.getElem?_eq_getElem hj, hjt]
  obtain ⟨msg, rfl⟩ : ∃ msg, t = .returned (crash msg) := by
    match t, ht with
    | .returned (.crash msg), _ => exact ⟨msg, rfl⟩
  refine ⟨r, List.mem_of_getElem? (C75_own_request S m rs sched j r _ hj'), ?_⟩
  rcases C75_apart_partial S m rs sched j r _ buf hn hm hc hb hs hj' with h | h
  · rw [← h]; simp
  · exact h.2

/-! ### Requests handled one after the other -/

theorem run_append (S : Server) (a b : List Nat) (s : State) : S.run (a ++ b) s = S.run b (S.run a s) := by
  induction a generalizing s with
  | nil => rfl
  | cons i is ih => exact ih (S.step i s)

theorem apart_append (S : Server) (a b : List Nat) (s : State) (h1 : Apart S a s) (h2 : Apart S b (S.run a s)) :
    Apart S (a ++ b) s := by
  induction a generalizing s with
  | nil => exact h2
  | cons i is ih => exact ⟨h1.1, ih _ h1.2 h2⟩

/-- Steps of goroutine `i` leave the others where they are. -/
theorem run_others (S : Server) (i N : Nat) (s : State) (j : Nat) (hj : j ≠ i) :
    (S.run (List.replicate N i) s).threads[j]? = s.threads[j]? := by
  induction N generalizing s with
  | zero => rfl
  | succ N ih =>
    show (S.run (List.replicate N i) (S.step i s)).threads[j]? = _
    rw [ih]
    unfold Server.step
    split
    · rfl
    · split
      · rfl
      · exact List.getElem?_set_ne (Ne.symm hj)

theorem apart_replicate (S : Server) (i N : Nat) (s : State)
    (ho : ∀ (j : Nat) (r : Request) (t : Thread), j ≠ i → s.threads[j]? = some (r, t) → Outside t) :
    Apart S (List.replicate N i) s := by
  induction N generalizing s with
  | zero => trivial
  | succ N ih =>
    refine ⟨fun j r t => ho j r t, ih _ ?_⟩
    intro j r t hj h
    have := run_others S i 1 s j hj
    simp only [List.replicate, Server.run] at this
    exact ho j r t hj (this ▸ h)

theorem not_dead_set {s : State} {i : Nat} {r : Request} {t : Thread} {m : Mem} (hd : s.dead = false)
    (ht : t.panicked = false) : (⟨s.threads.set i (r, t), m⟩ : State).dead = false := by
  unfold State.dead at hd ⊢
  rw [List.any_eq_false] at hd ⊢
  intro p hp
  rcases List.mem_or_eq_of_mem_set hp with h | h
  · exact hd p h
  · rw [h, ht]; simp

theorem step_running {S : Server} {s : State} {i : Nat} {r : Request} {t : Thread} (hd : s.dead = false)
    (hi : s.threads[i]? = some (r, t)) :
    S.step i s = ⟨s.threads.set i (r, (threadStep S.sn r t s.mem).1), (threadStep S.sn r t s.mem).2⟩ := by
  unfold Server.step
  rw [hd]
  simp [hi]

/-- The steps of a call, done by its goroutine alone. -/
theorem goes_run {S : Server} {r : Request} {b i : Nat} {k : List U32 → Prog (List U32)} {c c' : Cfg}
    (h : Goes (r.env b) S.sn r.msg.key c c') : ∀ {s : State}, s.dead = false →
      s.threads[i]? = some (r, .running b c.1 k) → s.mem = c.2 →
      ∃ N, S.run (List.replicate N i) s = ⟨s.threads.set i (r, .running b c'.1 k), c'.2⟩ := by
  induction h using Relation.ReflTransGen.head_induction_on with
  | refl =>
    intro s hd hi hm
    refine ⟨0, ?_⟩
    show s = _
    rw [← hm]
    obtain ⟨hl, he⟩ := List.getElem?_eq_some_iff.mp hi
    rw [← he, List.set_getElem_self]
  | head hcf hfd ih =>
    rename_i c f
    intro s hd hi hm
    have hl := (List.getElem?_eq_some_iff.mp hi).1
    have hst : S.step i s = ⟨s.threads.set i (r, .running b f.1 k), f.2⟩ := by
      rw [step_running hd hi]
      unfold Step at hcf
      simp only [threadStep, hm, hcf]
    obtain ⟨N, hN⟩ := ih (s := S.step i s) (by rw [hst]; exact not_dead_set hd rfl)
      (by rw [hst]; exact List.getElem?_set_self hl) (by rw [hst])
    refine ⟨N + 1, ?_⟩
    show S.run (List.replicate N i) (S.step i s) = _
    rw [hN, hst]
    simp

/-- A goroutine that is left alone returns. -/
theorem returns {S : Server} (hn : S.n < 20) {i : Nat} {r : Request} (hc : Ciphers r) (p : Prog (List U32)) :
    ∀ {s : State}, s.dead = false → p.Fits S.n (fun _ => True) → MemOk S.n s.mem →
      s.threads[i]? = some (r, enter r.msg.key p) →
      ∃ N a, (S.run (List.replicate N i) s).threads[i]? = some (r, .returned a) := by
  induction p with
  | ret a =>
    intro s hd hf hm hi
    exact ⟨0, a, hi⟩
  | call b x out k ih =>
    intro s hd hf hm hi
    have hl := (List.getElem?_eq_some_iff.mp hi).1
    obtain ⟨ho, hk⟩ := hf
    have hsim := eval_sim (env := r.env b) (sn := S.sn) (k := r.msg.key) (hc b) (x := x) (out := out) (ho ▸ hn)
      (ho ▸ hm) (initFss_ok out.length)
    cases hev : evaluatePF (r.env b) (initFss out.length) S.sn r.msg.key x out with
    | err msg => rw [hev] at hsim; exact hsim.elim
    | crash msg =>
      rw [hev] at hsim
      obtain ⟨d, msg', h1, h2⟩ := hsim
      obtain ⟨N, hN⟩ := goes_run h1 hd hi rfl
      refine ⟨N + 1, crash msg', ?_⟩
      rw [List.replicate_succ', run_append, hN]
      show (S.step i _).threads[i]? = _
      rw [step_running (not_dead_set hd rfl) (List.getElem?_set_self hl)]
      simp only [threadStep, h2]
      rw [List.getElem?_set_self (by simpa using hl)]
    | ok v =>
      rw [hev] at hsim
      obtain ⟨d, h1, ⟨h2, h3⟩, -⟩ := hsim
      obtain ⟨N, hN⟩ := goes_run h1 hd hi rfl
      have hlen := (evaluatePF_ready (hc b) hn (by rw [← ho]; exact initFss_ok out.length) ho hev).2
      have hst : S.run (List.replicate (N + 1) i) s = ⟨s.threads.set i (r, enter r.msg.key (k v.1)), d.2⟩ := by
        rw [List.replicate_succ', run_append, hN]
        show S.step i _ = _
        rw [step_running (not_dead_set hd rfl) (List.getElem?_set_self hl)]
        simp only [threadStep, h3, List.set_set]
      by_cases hp : (enter r.msg.key (k v.1)).panicked = true
      · refine ⟨N + 1, ?_⟩
        rw [hst]
        simp only
        rw [List.getElem?_set_self hl]
        cases hkv : enter r.msg.key (k v.1) with
        | returned a => exact ⟨a, rfl⟩
        | running i' e' k' => rw [hkv] at hp; cases hp
      · obtain ⟨N', a, hN'⟩ := ih v.1 (s := S.run (List.replicate (N + 1) i) s)
          (by rw [hst]; exact not_dead_set hd (by simpa using hp)) (hk v.1 hlen) (by rw [hst]; exact ho ▸ h2)
          (by rw [hst]; exact List.getElem?_set_self hl)
        exact ⟨N + 1 + N', a, by rw [List.replicate_add, run_append]; exact hN'⟩

/-- C75: handled one after the other all requests are answered, each as it would be alone, unless one of them makes the
server panic also when it is alone. -/
theorem C75_one_after_the_other (S : Server) (m : Mem) (rs : List Request) (buf : List Byte) (hn : S.n < 20)
    (hm : Rested S.n m) (hc : ∀ r ∈ rs, Ciphers r) (hb : BufferReady S.n buf) (hcr : ∀ r ∈ rs, ¬ (S.alone buf r).isCrash) :
    ∃ sched, Apart S sched (S.init m rs) ∧ ∀ (j : Nat) (r : Request), rs[j]? = some r →
      (S.run sched (S.init m rs)).threads[j]? = some (r, .returned (S.alone buf r)) := by
  -- the first `n` requests have been handled, the others have not begun
  have key : ∀ n, n ≤ rs.length → ∃ sched, Apart S sched (S.init m rs) ∧ ∀ (j : Nat) (r : Request), rs[j]? = some r →
      (S.run sched (S.init m rs)).threads[j]? =
        some (r, if j < n then .returned (S.alone buf r) else S.thread r) := by
    intro n
    induction n with
    | zero =>
      intro _
      refine ⟨[], trivial, ?_⟩
      intro j r hr
      simp [Server.run, Server.init, hr]
    | succ n ih =>
      intro hn'
      obtain ⟨sched, ha, hth⟩ := ih (by omega)
      have hr : rs[n]? = some rs[n] := List.getElem?_eq_getElem (by omega)
      set s := S.run sched (S.init m rs) with hs
      have hinv : Inv S s := inv_run hn sched (inv_init hm hc) ha
      have hin := hth n _ hr
      rw [if_neg (by omega)] at hin
      have hout : ∀ (j : Nat) (r : Request) (t : Thread), s.threads[j]? = some (r, t) → Outside t := by
        intro j r t hj
        have := hth j r (C75_own_request S m rs sched j r t hj)
        rw [hj] at this
        simp only [Option.some.injEq, Prod.mk.injEq, true_and] at this
        rw [this]
        split
        · trivial
        · exact (good_enter (sn := S.sn) (r := r) (m := s.mem) (handler_fits S.hash r.now S.db S.n r.msg) rfl).2
      have hd : s.dead = false := by
        by_contra hd
        obtain ⟨r, h1, h2⟩ := C75_apart_dead S m rs sched buf hn hm hc hb ha (by simpa using hd)
        exact hcr r h1 h2
      obtain ⟨N, a, hN⟩ := returns (S := S) hn (i := n) (hc _ (List.getElem_mem _)) _ hd
        (handler_fits S.hash rs[n].now S.db S.n rs[n].msg) (hinv.rest hd hout) hin
      have hap := apart_append S sched (List.replicate N n) (S.init m rs) ha
        (apart_replicate S n N s fun j r t _ h => hout j r t h)
      refine ⟨_, hap, ?_⟩
      intro j r hj
      rw [run_append]
      by_cases hjn : j = n
      · subst hjn
        rw [hr] at hj
        simp only [Option.some.injEq] at hj
        subst hj
        rw [if_pos (by omega), ← hs, hN]
        have := C75_apart_partial S m rs _ j _ a buf hn hm hc hb hap (by rw [run_append]; exact hN)
        rcases this with h | h
        · rw [h]
        · exact absurd h.2 (hcr _ (List.getElem_mem _))
      · rw [← hs, run_others S n N s j hjn, hth j r hj]
        have : j < n ↔ j < n + 1 := by omega
        simp only [this]
  obtain ⟨sched, h1, h2⟩ := key rs.length (le_refl _)
  refine ⟨sched, h1, ?_⟩
  intro j r hj
  rw [h2 j r hj, if_pos (List.getElem?_eq_some_iff.mp hj).1]

/-- C75: a server that handles one query at a time, like the deployed one, gives to each query of its history, of any
length, the answer a new server would give. -/
theorem C75_history (S : Server) (rs : List Request) (hn : S.n < 20) (hc : ∀ r ∈ rs, Ciphers r) (buf : List Byte)
    (hb : BufferReady S.n buf) : S.inTurn buf rs = rs.mapM (S.alone (initFss S.n)) := by
  induction rs generalizing buf with
  | nil => rfl
  | cons r rs ih =>
    have hcr := hc r (by simp)
    obtain ⟨h1, h2⟩ := run_val (sn := S.sn) (key := r.msg.key) hn hcr (handler_fits S.hash r.now S.db S.n r.msg) hb
    rw [handler_run] at h1 h2
    have hal : S.alone (initFss S.n) r = S.alone buf r := by
      rw [← val_alone hn hcr (initFss_ok _), ← val_alone hn hcr hb]
    rw [List.mapM_cons, hal]
    unfold Server.inTurn Server.alone
    cases ha : answer S.hash r.env r.now S.sn S.db S.n buf r.msg with
    | err m => rfl
    | crash m => rfl
    | ok v =>
      obtain ⟨a, b⟩ := v
      simp only [ok_bind]
      rw [ih (fun r hr => hc r (by simp [hr])) b (h2 a b ha)]
      rfl

/-! ### Two queries at the same time -/

/-- A block cipher and the other surroundings of the examples. -/
def exEnv : Env := ⟨parityCipher, fun _ => 0, 0⟩

/-- Count the keys of an algorithm. -/
def exInfo : Info := ⟨2, 0, 0, false, false, false⟩

/-- A database of one RSA key. -/
def exDb : KeyDB := ⟨1, [⟨[], ⟨0, ok []⟩, 1⟩]⟩

/-- The two servers. -/
def exServer (sn : Byte) : Server := ⟨fun _ => List.replicate 32 0, sn, exDb, 1⟩

/-- The question for the RSA keys. -/
def exAsk : ClientFSS := ⟨exInfo, [false, false, false, false, false, false, false, true]⟩

theorem exAsk_eq : toPKAClientFSS exInfo "RSA" = ok exAsk := by
  unfold toPKAClientFSS
  rw [if_pos rfl]
  rfl

/-- The messages of a client with this randomness that counts the RSA keys (lib/client/predicate_pir.go). -/
def exMsgs (r1 r2 : List Byte) : List Msg :=
  match Predicate.query exEnv 0 1 ⟨fun _ => 0, 0⟩ (initFss 1) r1 r2 exAsk 2 with
  | ok (ms, _) => ms
  | _ => []

/-- The request with which message `i` of a client arrives. -/
def exReq (r1 r2 : List Byte) (i : Nat) : Request :=
  ⟨(exMsgs r1 r2).getD i ⟨exInfo, ⟨[], 0, [], []⟩⟩, fun _ => exEnv, fun _ => 0⟩

/-- Two clients ask server 0 at the same time. -/
def exStart : State :=
  (exServer 0).init (newMem 1)
    [exReq (List.replicate 17 0) (List.replicate 16 0) 0, exReq (List.replicate 17 1) (List.replicate 16 0) 0]

/-- The first client's goroutine is interrupted in the last level of its tree by the whole of the second. -/
def exSched : List Nat := List.replicate 320 0 ++ (List.replicate 360 1 ++ List.replicate 40 0)

/-- The outcomes. -/
def outcomes (s : State) : List (Option (Res (List U32))) :=
  s.threads.map fun p => match p.2 with
    | .returned r => some r
    | .running _ _ _ => none

theorem exOutcomes : outcomes ((exServer 0).run exSched exStart) = [some (ok [0x7ffffffe]), some (ok [1])] := by
  decide +kernel

theorem exAlone0 : (exServer 0).alone (initFss 1) (exReq (List.replicate 17 0) (List.replicate 16 0) 0) = ok [0] := by
  decide +kernel

theorem exAlone1 : (exServer 1).alone (initFss 1) (exReq (List.replicate 17 0) (List.replicate 16 0) 1) = ok [1] := by
  decide +kernel

theorem outcomes_get {s : State} {j : Nat} {a : Res (List U32)} (h : (outcomes s)[j]? = some (some a)) :
    ∃ r, s.threads[j]? = some (r, .returned a) := by
  simp only [outcomes, List.getElem?_map, Option.map_eq_some_iff] at h
  obtain ⟨⟨r, t⟩, h1, h2⟩ := h
  cases t with
  | returned a' => simp only [Option.some.injEq] at h2; exact ⟨r, by rw [h1, h2]⟩
  | running i e k => cases h2

theorem exStart_ciphers : ∀ r ∈ [exReq (List.replicate 17 0) (List.replicate 16 0) 0,
    exReq (List.replicate 17 1) (List.replicate 16 0) 0], Ciphers r := by
  intro r hr i
  simp only [List.mem_cons, List.not_mem_nil, or_false] at hr
  rcases hr with rfl | rfl <;> exact parityCipher_block

theorem newMem_rested (n : Nat) : Rested n (newMem n) := ⟨by simp [newMem], initFss_ok n⟩

theorem exFirst : ((exServer 0).run exSched exStart).threads[0]? =
    some (exReq (List.replicate 17 0) (List.replicate 16 0) 0, .returned (ok [0x7ffffffe])) := by
  obtain ⟨r, hr⟩ := outcomes_get (s := (exServer 0).run exSched exStart) (j := 0) (a := ok [0x7ffffffe])
    (by rw [exOutcomes]; rfl)
  have := C75_own_request _ _ _ _ 0 r _ hr
  simp only [List.getElem?_cons_zero, Option.some.injEq] at this
  rw [hr, this]

theorem exAlive : ((exServer 0).run exSched exStart).dead = false := by
  decide +kernel

/-- C75 as claimed is false: two clients that count the RSA keys at the same time disturb each other. -/
theorem C75_refuted : ¬ C75_Statement := by
  intro H
  have := H (exServer 0) (newMem 1) _ exSched 0 _ _ (initFss 1) (by decide) (newMem_rested 1) exStart_ciphers
    (initFss_ok 1) exAlive exFirst
  rw [exAlone0] at this
  rcases this with h | h
  · simp at h
  · simp at h

/-- C75, what the user sees: the database has one RSA key, and the two answers reconstruct to one when the server is left
alone, but to none when the second client's query comes in between. -/
theorem C75_wrong_count (st : Predicate.State) :
    (do let a0 ← (exServer 0).alone (initFss 1) (exReq (List.replicate 17 0) (List.replicate 16 0) 0)
        let a1 ← (exServer 1).alone (initFss 1) (exReq (List.replicate 17 0) (List.replicate 16 0) 1)
        reconstruct 1 st [a0, a1]) = ok 1 ∧
    ((exServer 0).run exSched exStart).threads[0]? =
      some (exReq (List.replicate 17 0) (List.replicate 16 0) 0, .returned (ok [0x7ffffffe])) ∧
    (do let a1 ← (exServer 1).alone (initFss 1) (exReq (List.replicate 17 0) (List.replicate 16 0) 1)
        reconstruct 1 st [[0x7ffffffe], a1]) = ok 0 := by
  refine ⟨?_, exFirst, ?_⟩
  · rw [exAlone0, exAlone1]
    rfl
  · rw [exAlone1]
    rfl

/-- Two requests and a schedule that keeps them apart: the hypotheses of the theorems above are met. -/
example : ∃ sched, Apart (exServer 0) sched exStart ∧
    ((exServer 0).run sched exStart).threads[0]? =
      some (exReq (List.replicate 17 0) (List.replicate 16 0) 0, .returned (ok [0])) := by
  obtain ⟨sched, h1, h2⟩ := C75_one_after_the_other (exServer 0) (newMem 1) _ (initFss 1) (by decide) (newMem_rested 1)
    exStart_ciphers (initFss_ok 1) (by
      intro r hr
      simp only [List.mem_cons, List.not_mem_nil, or_false] at hr
      rcases hr with rfl | rfl <;> decide +kernel)
  refine ⟨sched, h1, ?_⟩
  have := h2 0 _ rfl
  rw [exAlone0] at this
  exact this

/-- A history of three queries. -/
example : (exServer 0).inTurn (initFss 1) [exReq (List.replicate 17 0) (List.replicate 16 0) 0,
    exReq (List.replicate 17 1) (List.replicate 16 0) 0, exReq (List.replicate 17 0) (List.replicate 16 0) 0] =
      ok [[0], [1], [0]] := by
  decide +kernel

end Verif.Shared
