import Verif.Props.Life
import Verif.Props.RandShared
import Verif.Props.Uptime
import Verif.Props.Web
import Verif.Props.Shared
import Verif.Props.Object

/-! # C117 to C122: what holds without exception of the claims C75, C76, C77, C79, C81 and C97 -/

namespace Verif.Life
open Res

/-- C117: in every state the process can get into, whatever calls, signals and failures came before: the service manager
was told at most READY and then at most STOPPING; READY is told by a step after which calls are accepted; and once STOPPING
was told, or the process has exited, every call that was accepted has returned with the answer or the error of its own query,
unless its client gave up, and no call is accepted any more. -/
theorem C117_notifications {work : List Byte → Res (List Byte)} {s : State} (h : Reach work s) :
    (s.told = [] ∨ s.told = ["READY=1"] ∨ s.told = ["STOPPING=1"] ∨ s.told = ["READY=1", "STOPPING=1"]) ∧
    (∀ s', Spec.Step work s s' → "READY=1" ∉ s.told → "READY=1" ∈ s'.told → accepting s' = true) ∧
    ("STOPPING=1" ∈ s.told → s.pc = .exited) ∧
    (s.pc = .exited → alive s = false ∧ ∀ c ∈ s.rpc.calls, Spec.Settled work c) :=
  ⟨C77_told h, fun _ hs h0 h1 => C77_ready_means_ready h hs h0 h1, fun ht => (C77_stopping_told_last h ht).1,
    fun hp => ⟨by simp [alive, hp], fun c hc => C77_exit_settles h hp c hc⟩⟩

/-- C117: the process never hangs: it makes at most four steps for each call and 29 more by itself, and where it can make
none it has ended, or it waits for calls and signals with no call open. -/
theorem C117_no_hang {work : List Byte → Res (List Byte)} :
    (∀ (f : Nat → State) (k : Nat), Reach work (f 0) → (∀ i, i < k → Sys work (f i) (f (i + 1))) →
      k ≤ 4 * (f 0).rpc.calls.length + 29) ∧
    ∀ s, Reach work s → Spec.Rest work s → s.rpc.crashed = true ∨ Spec.Fatal s ∨ s.pc = .exited ∨
      (s.pc = .waiting ∧ s.signal = false ∧ s.serveErr = none ∧ ∀ c ∈ s.rpc.calls, Spec.Settled work c) :=
  ⟨fun f k h0 hs => C77_terminates f k h0 hs, fun _ h hr => C77_rest h hr⟩

/-- A process that has told that it is ready. -/
example : ∃ s, Reach (fun q => ok q) s ∧ s.told = ["READY=1"] ∧ accepting s = true :=
  ⟨_, Reach.sys _ _ (Reach.start (work := fun q => ok q))
    (.ready start ⟨some "/run/systemd/notify", ok (), ok (), ok ()⟩ true rfl (by decide +kernel) (by decide +kernel)),
    by decide +kernel, by decide +kernel⟩

end Verif.Life

namespace Verif.RandShared
open Verif.Rand Verif.Rand.Spec Spec

/-- C118: for every number of goroutines, every program they run and every schedule: the numbers they were told are
explained by draws that use the generator's stream one after the other, without gap or overlap; a number asked for below `m`
is below `m`; and each such number arises from equally many of the byte strings of an attempt, more than half of which
yield a number. -/
theorem C118_numbers (ks : Nat → Byte) (size : Nat) (hsz : 16 ≤ size) (progs : List (List Call))
    (hsmall : ∀ p ∈ progs, ∀ c ∈ p, Small size c) (s : State) (h : Reach (init ks size progs) s) :
    Explained (served ks size) progs s ∧
    (∀ (i : Nat) (prog : List Call) (th : Thread), progs[i]? = some prog → s.threads[i]? = some th →
      ∀ c v, (c, v) ∈ answered prog th.replies → v < bound c) ∧
    (∀ (m : Int) (v v' : Nat), (v : Int) < m → (v' : Int) < m →
      (Finset.univ.filter fun f : Fin (width (.int m)) → Fin (2 ^ 8) => attempt (.int m) (bytesOf f) = some v).card =
      (Finset.univ.filter fun f : Fin (width (.int m)) → Fin (2 ^ 8) => attempt (.int m) (bytesOf f) = some v').card) ∧
    (∀ m : Int, 0 < m → Fintype.card (Fin (width (.int m)) → Fin (2 ^ 8)) <
      2 * (Finset.univ.filter fun f : Fin (width (.int m)) → Fin (2 ^ 8) => attempt (.int m) (bytesOf f) ≠ none).card) :=
  ⟨C79_draws ks size hsz progs hsmall s h,
    fun i prog th hp ht => C79_in_range ks size hsz progs hsmall s h i prog th hp ht,
    fun m v v' hv hv' => (C79_uniform m v hv).trans (C79_uniform m v' hv').symm, fun m hm => C79_half m hm⟩

/-- Two goroutines, of which one has drawn a number below 3. -/
example : ∃ s, Reach (init (fun i => if i = 8 then 7 else 1) 16 [[.int 3], [.u64]]) s ∧
    s.threads.map (·.replies) = [[.value 1], [.value 0x0101010101010101]] :=
  ⟨_, play_reach .start (is := [1, 1, 1, 1, 0, 0, 0, 0, 0, 0]) rfl, by decide +kernel⟩

end Verif.RandShared

namespace Verif.Deploy
open Res Verif.Cmd Verif.Query Verif.Client Verif.Client.Spec Verif.Deploy.Spec

/-- C119: whatever any number of other clients send to the servers at the same time, each client program shows what it
shows when it is alone, or ends with an error of its own: for all servers, all requests and all schedules. -/
theorem C119_undisturbed (running : List Running) (net : Net) (hn : Behind running net) (S : Schedule)
    (addrs : List String) :
    (∀ L W gob mk f typed out, main L W gob mk net S addrs f typed = ok out →
      main L W gob mk (network running) S addrs f typed = ok out) ∧
    (∀ L email x, downloadKey L net S addrs email = ok x → downloadKey L (network running) S addrs email = ok x) ∧
    (∀ L req page, handleRetrieve L net S addrs req = ok page → handleRetrieve L (network running) S addrs req = ok page) ∧
    (∀ W gob mk c t, showStats W gob mk net S addrs c = ok t → showStats W gob mk (network running) S addrs c = ok t) := by
  obtain ⟨h1, h2, h3, h4⟩ := C76_other_clients hn
  have key : ∀ {α : Type} {r r' : Res α} {a : α}, SameOrEnd r r' → r = ok a → r' = ok a := by
    intro α r r' a h hr
    rcases h with h | h
    · rw [← h, hr]
    · rw [hr] at h; simp at h
  exact ⟨fun L W gob mk f typed out h => key (h1 L W gob mk S addrs f typed) h, fun L email x h => key (h2 L S addrs email) h,
    fun L req page h => key (h3 L S addrs req) h, fun W gob mk c t h => key (h4 W gob mk S addrs c) h⟩

/-- Servers whose answers are lost now and then are such a network. -/
example (running : List Running) : Behind running (failing running) := failing_behind running

end Verif.Deploy

namespace Verif.Web
open Res Verif.Web.Spec

/-- C120: in every history of requests to the web front end, however their handlers overlap: a request that got a reply got
that of its own handler, and a connection was closed without a reply only if its own handler panicked. With servers that
answer every call, the process is down only if one of the requests asked for a year that is not a number. -/
theorem C120_replies {w : Site} {p : Process} (h : Reach w p) :
    (∀ v ∈ p.visits, (∀ r, v.2 = .answered r → handle w v.1 = .done r) ∧
      (v.2 = .closed → ∃ m, handle w v.1 = .dropped m)) ∧
    (w.complex.length = 2 →
      (∀ v ∈ p.visits, Responsive v.1.weather.net ∧ Client.Spec.Fair v.1.weather.S) →
      p.up = false → ∃ v ∈ p.visits, BadYear v.1) := by
  refine ⟨C81_own_reply h, fun h2 hr hd => ?_⟩
  obtain ⟨v, hv, hm⟩ := down_by_visit h hd
  exact ⟨v, hv, (C81_ends_iff w h2 v.1 (hr v hv).1 (hr v hv).2).mp hm⟩

/-- A history in which one request came and got its reply. -/
example : ∃ p, Reach exSite p ∧ p.visits = [(caller, .answered ⟨"1", [.body [60]]⟩)] ∧
    Responsive caller.weather.net ∧ Client.Spec.Fair caller.weather.S :=
  ⟨_, Reach.step _ _ (Reach.step _ _ (Reach.start (w := exSite)) (.arrive _ caller rfl))
    (.reply _ 0 caller ⟨"1", [.body [60]]⟩ rfl rfl ((C81_routes exSite caller).1 rfl)), rfl, emptyNet_responsive, inOrder_fair⟩

end Verif.Web

namespace Verif.Shared
open Res Verif.Field Verif.Fss Verif.Fss.Spec Verif.Query Verif.Predicate Verif.Shared.Spec

/-- C121: a deployed predicate server, which handles its queries in turn, gives the answer to a query that a new server
would give, whatever queries came before and whatever they left in the server's memory; so two histories that end with the
same query end with the same answer. -/
theorem C121_history (S : Server) (before before' : List Request) (r : Request) (hn : S.n < 20)
    (hc : ∀ q ∈ before ++ before' ++ [r], Ciphers q) (answers answers' : List (List U32)) (a a' : List U32)
    (h : S.inTurn (initFss S.n) (before ++ [r]) = ok (answers ++ [a]))
    (h' : S.inTurn (initFss S.n) (before' ++ [r]) = ok (answers' ++ [a'])) :
    a = a' ∧ S.alone (initFss S.n) r = ok a := by
  have key : ∀ (before : List Request) (answers : List (List U32)) (a : List U32),
      (∀ q ∈ before ++ [r], Ciphers q) → S.inTurn (initFss S.n) (before ++ [r]) = ok (answers ++ [a]) →
      S.alone (initFss S.n) r = ok a := by
    intro before answers a hc h
    rw [C75_history S _ hn hc _ (initFss_ok _), List.mapM_append, Res.bind_eq_ok] at h
    obtain ⟨xs, -, h⟩ := h
    rw [Res.bind_eq_ok] at h
    obtain ⟨ys, hys, h⟩ := h
    rw [List.mapM_cons, Res.bind_eq_ok] at hys
    obtain ⟨y, hy, hys⟩ := hys
    simp only [List.mapM_nil] at hys
    cases hys
    have := (List.append_inj' (Res.ok.inj h) rfl).2
    cases this
    exact hy
  have e := key before answers a (fun q hq => hc q (by simp at hq ⊢; tauto)) h
  have e' := key before' answers' a' (fun q hq => hc q (by simp at hq ⊢; tauto)) h'
  rw [e] at e'
  exact ⟨Res.ok.inj e', e⟩

/-- The same query alone and after another one. -/
example : (exServer 0).inTurn (initFss 1) ([] ++ [exReq (List.replicate 17 0) (List.replicate 16 0) 0]) = ok ([] ++ [[0]]) ∧
    (exServer 0).inTurn (initFss 1) ([exReq (List.replicate 17 1) (List.replicate 16 0) 0] ++
      [exReq (List.replicate 17 0) (List.replicate 16 0) 0]) = ok ([[1]] ++ [[0]]) := by
  decide +kernel

end Verif.Shared

namespace Verif.Object
open Res
variable {O Q M A R : Type}

/-- Lookups made one after the other with an object whose messages and results depend on the last query only. -/
theorem lookups_fresh (c : Client O Q M A R) (W : Q → Prop) (h1 : SameMessages c) (h2 : LastQueryCounts c W)
    (asked : List (Q × (M → Res A))) (hW : ∀ x ∈ asked, W x.1) (past : List (Call Q A)) :
    lookups c (c.after past) asked = asked.map fun x => c.lookup c.new x.1 x.2 := by
  induction asked generalizing past with
  | nil => rfl
  | cons x asked ih =>
    obtain ⟨q, server⟩ := x
    have hq : (c.query (c.after past) q).1 = c.after (past ++ [.query q]) := by
      unfold Client.after
      rw [List.foldl_append]
      rfl
    have hhead : c.lookup (c.after past) q server = c.lookup c.new q server := by
      unfold Client.lookup
      rw [← h1 past q]
      cases hm : (c.query (c.after past) q).2 with
      | err m => rfl
      | crash m => rfl
      | ok m =>
        rw [ok_bind, ok_bind]
        cases server m with
        | err m => rfl
        | crash m => rfl
        | ok a =>
          rw [ok_bind, ok_bind, hq]
          exact h2 past q m [] a (hW (q, server) (by simp)) hm
    unfold lookups
    rw [List.map_cons, hhead]
    congr 1
    have ih' := ih (fun y hy => hW y (by simp [hy]))
    split
    · rename_i a _
      have : (c.reconstruct (c.query (c.after past) q).1 a).1 = c.after (past ++ [.query q, .reconstruct a]) := by
        rw [hq]
        unfold Client.after
        rw [List.foldl_append, List.foldl_append]
        rfl
      rw [this]
      exact ih' _
    · rw [hq]
      exact ih' _

/-- C122: lookups made one after the other with one object return what as many new objects return, one for each: for the
multi-server, group, LWE (32 and 128 bits), amplified and predicate clients, whatever calls were made on the object before,
whatever is looked up and whatever the servers answer. -/
theorem C122_sessions :
    (∀ (H : List Byte → List Byte) (info : Database.Info) past asked,
      lookups (point H info) ((point H info).after past) asked =
        asked.map fun x => (point H info).lookup (point H info).new x.1 x.2) ∧
    (∀ (G : Type) [AddCommGroup G] [DecidableEq G] (g : Dh.Grp G) (info : Dh.Info) past asked,
      lookups (dh g info) ((dh g info).after past) asked = asked.map fun x => (dh g info).lookup (dh g info).new x.1 x.2) ∧
    (∀ (w : Nat) (S : Lwe.Scheme w) (aesctr : List Byte → Nat → Byte) (p : Matrix.Params) (numColumns : Nat)
        (digest : Matrix.Mat w) past asked,
      lookups (lwe S aesctr p numColumns digest) ((lwe S aesctr p numColumns digest).after past) asked =
        asked.map fun x => (lwe S aesctr p numColumns digest).lookup (lwe S aesctr p numColumns digest).new x.1 x.2) ∧
    (∀ (aesctr : List Byte → Nat → Byte) (p : Matrix.Params) (numColumns : Nat) (digest : Matrix.Mat 32) (k : Nat)
        past asked, (∀ x ∈ asked, k ≤ x.1.coins.length) →
      lookups (amplify aesctr p numColumns digest k) ((amplify aesctr p numColumns digest k).after past) asked =
        asked.map fun x => (amplify aesctr p numColumns digest k).lookup (amplify aesctr p numColumns digest k).new x.1 x.2) ∧
    (∀ (E : Fss.Spec.Cipher), Fss.Spec.BlockCipher E → ∀ fuel ex : Nat, 0 < ex → ex < 20 → ∀ past asked,
      lookups (predicate E fuel ex) ((predicate E fuel ex).after past) asked =
        asked.map fun x => (predicate E fuel ex).lookup (predicate E fuel ex).new x.1 x.2) := by
  refine ⟨fun H info past asked => ?_, fun G _ _ g info past asked => ?_, fun w S aesctr p n d past asked => ?_,
    fun aesctr p n d k past asked hk => ?_, fun E hE fuel ex h0 h20 past asked => ?_⟩
  · exact lookups_fresh _ _ (C97_point H info).1 (C97_point H info).2 asked (fun _ _ => trivial) past
  · exact lookups_fresh _ _ (C97_dh g info).1 (C97_dh g info).2 asked (fun _ _ => trivial) past
  · exact lookups_fresh _ _ (C97_lwe S aesctr p n d).1 (C97_lwe S aesctr p n d).2 asked (fun _ _ => trivial) past
  · exact lookups_fresh _ _ (C97_amplify aesctr p n d k).1 (C97_amplify aesctr p n d k).2 asked hk past
  · exact lookups_fresh _ _ (C97_predicate E hE fuel ex h0 h20).1 (C97_predicate E hE fuel ex h0 h20).2 asked
      (fun _ _ => trivial) past

/-- Two lookups with one object, the first of which gets nonsense. -/
example : lookups (lwe Lwe.lwe32 (fun _ _ => 1) oneParams 1 oneBit.digest)
      (lwe Lwe.lwe32 (fun _ _ => 1) oneParams 1 oneBit.digest).new
      [(⟨oneCoins, 0⟩, fun _ => ok []), (⟨oneCoins, 0⟩, Lwe.answerBytes Lwe.lwe32 oneBit)] =
    [crash "slice bounds out of range", ok 1] := by
  decide +kernel

end Verif.Object
