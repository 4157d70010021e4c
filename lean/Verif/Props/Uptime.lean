import Verif.Spec.Uptime
import Verif.Lemmas.Shared
import Verif.Props.Rpc
import Verif.Props.Deploy
import Verif.Props.PredicateRobust

/-! # C76: servers under any number of concurrent clients -/

namespace Verif.Rpc
open Res

variable {work : List Byte → Res (List Byte)} {s : State}

/-- A call that has been answered did not make the server panic. -/
theorem answered_survived (h : Reach work s) : ∀ i ∈ s.answered, ∀ c, s.calls[i]? = some c → ¬ (work c.query).isCrash := by
  induction h with
  | start => intro i hi; simp [start] at hi
  | env s s' h st ih =>
    intro i hi c hc
    cases st with
    | arrive q _ =>
      have hk := (inv_reach h).known i (by rw [(inv_reach h).history]; simp [hi])
      rw [List.getElem?_append_left hk] at hc
      exact ih i hi c hc
    | cancel j d _ hjd =>
      rcases getElem?_set_cases hc with ⟨rfl, rfl⟩ | ⟨-, hc⟩
      · exact ih i hi d hjd
      · exact ih i hi c hc
    | close _ _ => exact ih i hi c hc
  | sys s s' h st ih =>
    intro i hi c hc
    cases st with
    | send j d _ hjd _ _ _ =>
      rcases getElem?_set_cases hc with ⟨rfl, rfl⟩ | ⟨-, hc⟩
      · exact ih i hi d hjd
      · exact ih i hi c hc
    | sendClosed j d _ hjd _ _ => exact ih i hi c hc
    | take j rest _ _ _ => exact ih i hi c hc
    | exit _ _ _ _ => exact ih i hi c hc
    | answer j d a _ hw hjd hwk _ =>
      rcases getElem?_set_cases hc with ⟨rfl, rfl⟩ | ⟨hne, hc⟩
      · simp only; rw [hwk]; simp
      · rw [List.mem_append, List.mem_singleton] at hi
        rcases hi with hi | hi
        · exact ih i hi c hc
        · exact absurd hi hne
    | fail j d e _ hw hjd hwk _ =>
      rcases getElem?_set_cases hc with ⟨rfl, rfl⟩ | ⟨hne, hc⟩
      · simp only; rw [hwk]; simp
      · rw [List.mem_append, List.mem_singleton] at hi
        rcases hi with hi | hi
        · exact ih i hi c hc
        · exact absurd hi hne
    | panics j d e _ _ _ _ => exact ih i hi c hc
    | recvAnswer j d a _ hjd _ _ =>
      rcases getElem?_set_cases hc with ⟨rfl, rfl⟩ | ⟨-, hc⟩
      · exact ih i hi d hjd
      · exact ih i hi c hc
    | recvError j d e _ hjd _ _ =>
      rcases getElem?_set_cases hc with ⟨rfl, rfl⟩ | ⟨-, hc⟩
      · exact ih i hi d hjd
      · exact ih i hi c hc
    | recvDone j d _ hjd _ _ =>
      rcases getElem?_set_cases hc with ⟨rfl, rfl⟩ | ⟨-, hc⟩
      · exact ih i hi d hjd
      · exact ih i hi c hc

/-- C76: a call whose query makes the answering function panic ends the process, cancelled or not: the server comes to rest
only by that. -/
theorem C76_crashing_query_is_fatal (h : Reach work s) (hcl : s.closed = false) (hrest : ¬ ∃ s', Sys work s s') (i : Nat)
    (c : Call) (hic : s.calls[i]? = some c) (hq : (work c.query).isCrash) : s.crashed = true := by
  by_contra hc
  have hc : s.crashed = false := by simpa using hc
  have hi := inv_reach h
  have hst : c.status ≠ .sending := by
    rcases C44_all_return h hc hcl hrest i c hic with ⟨a, -, h⟩ | ⟨a, -, h⟩ | ⟨-, h⟩ <;> rw [h] <;> simp
  have hsent : i ∈ s.sent := ((C44_in_order_once h).2.2.2 i c hic).mpr hst
  have hidle : s.worker = .idle := by
    cases hw : s.worker with
    | idle => rfl
    | busy j =>
      obtain ⟨s', h1, -⟩ := C44_worker_never_blocked h hc j hw
      exact absurd ⟨s', h1⟩ hrest
    | stopped =>
      have := (hi.stopped hw).1
      rw [hcl] at this
      cases this
  have hque : s.queue = [] := by
    cases hq : s.queue with
    | nil => rfl
    | cons j rest => exact absurd ⟨_, Sys.take s j rest hc hidle hq⟩ hrest
  rw [hi.history, hidle, hque] at hsent
  simp only [inWork, List.append_nil] at hsent
  exact answered_survived h i hsent c hic hq

/-- C76: a server on whose queries the answering function does not panic stays up until it is shut down. -/
theorem C76_stays_up (h : Reach work s) (hcl : s.closed = false) (hq : ∀ c ∈ s.calls, ¬ (work c.query).isCrash) :
    s.crashed = false := by
  by_contra hc
  rcases (inv_reach h).crash (by simpa using hc) with ⟨h1, -⟩ | ⟨i, c, e, -, h1, h2⟩
  · rw [hcl] at h1; cases h1
  · exact hq c (List.mem_of_getElem? h1) (by rw [h2]; simp)

end Verif.Rpc

namespace Verif.Deploy
open Res Verif.Cmd Verif.Pgp Verif.Pgp.Spec Verif.Query Verif.Client Verif.Client.Spec Verif.MerklePir Verif.Point.Spec
  Verif.Layout Verif.Deploy.Spec
open Verif.Shared (bind_isErr forLoop_isErr idx_isErr slice_isErr copyAt_isErr)

/-! ### Queries to a point server -/

theorem xorValues_isErr (entries : List Byte) (lens : List Nat) (q out : List Byte) :
    ¬ (Point.xorValues entries lens q out).isErr := by
  unfold Point.xorValues
  refine bind_isErr (forLoop_isErr ?_) fun _ => by simp
  rintro j ⟨pos, out⟩
  refine bind_isErr (idx_isErr _ _) fun _ => bind_isErr (idx_isErr _ _) fun _ => ?_
  simp only
  split
  · exact bind_isErr (slice_isErr _ _ _) fun _ => by simp
  · simp

theorem answerVec_isErr (db : Database.Bytes) (q : List Byte) : ¬ (Point.answerVec db q).isErr := by
  unfold Point.answerVec
  refine bind_isErr (forLoop_isErr ?_) fun _ => by simp
  rintro i ⟨a, b, out⟩
  refine bind_isErr (forLoop_isErr fun j t => bind_isErr (idx_isErr _ _) fun _ => by simp) fun _ =>
    bind_isErr (slice_isErr _ _ _) fun _ => bind_isErr (slice_isErr _ _ _) fun _ => bind_isErr (slice_isErr _ _ _) fun _ =>
    bind_isErr (xorValues_isErr _ _ _ _) fun _ => bind_isErr (copyAt_isErr _ _ _) fun _ => by simp

/-- A selection string that does not cover the columns makes a server of mode 0 panic. -/
theorem short_crash (dpf : Point.Dpf) (db : Database.Bytes) (q : List Byte) (hR : 0 < db.info.numRows)
    (hs : 8 * q.length < db.info.numColumns) : (Point.answer dpf 0 db q).isCrash := by
  have h1 := Point.short_unanswered dpf db q hR hs
  have h2 : ¬ (Point.answer dpf 0 db q).isErr := by
    unfold Point.answer
    rw [if_neg (by decide)]
    exact answerVec_isErr db q
  cases h : Point.answer dpf 0 db q with
  | ok a => exact absurd ⟨a, h⟩ h1
  | err m => rw [h] at h2; simp at h2
  | crash m => simp

theorem long_ok (dpf : Point.Dpf) {db : Database.Bytes} {blocks : List (List Byte)} (hdb : Stores db blocks) (q : List Byte)
    (hq : db.info.numColumns ≤ 8 * q.length) : ∃ a, Point.answer dpf 0 db q = ok a := by
  obtain ⟨a, ha, -⟩ := Point.answerVec_spec hdb q hq
  exact ⟨a, by unfold Point.answer; rw [if_neg (by decide), ha]⟩

/-- What a point server is. -/
theorem point_running {M : Machine} {config : List (List Char × Server)} {f : ServerFlags}
    (hf : f.scheme = "pointPIR" ∨ f.scheme = "pointVPIR") {R : Running} (h : serverMain M config f = ok R) :
    ∃ db, R.info = pointDbInfo db ∧ R.answer = Point.answer M.dpf 0 db := by
  unfold serverMain at h
  simp only [bind_eq_ok] at h
  obtain ⟨addrs, -, addr, -, r, hr, _, -, _, -, h⟩ := h
  simp only [ok.injEq] at h
  subst h
  unfold loadServer at hr
  split at hr
  · simp only [bind_eq_ok] at hr
    obtain ⟨keys, -, db, -, hr⟩ := hr
    simp only [ok.injEq] at hr
    exact ⟨db, by rw [← hr], by rw [← hr]⟩
  · rename_i hne
    rw [if_pos (hf.resolve_left hne)] at hr
    simp only [bind_eq_ok] at hr
    obtain ⟨keys, -, db, -, hr⟩ := hr
    simp only [ok.injEq] at hr
    exact ⟨db, by rw [← hr], by rw [← hr]⟩

/-- C76 as claimed: a server that has started stays up until it is shut down, whatever the clients send. -/
def C76_Statement : Prop :=
  ∀ (M : Machine) (config : List (List Char × Server)) (f : ServerFlags) (R : Running), serverMain M config f = ok R →
    ∀ s, Rpc.Reach R.answer s → s.closed = false → s.crashed = false

/-- C76: one call with a query that is too short for the number of columns, for instance an empty one, ends the process of a
point server, whatever state it is in and whatever else it is working on. -/
theorem C76_short_query_ends_server (M : Machine) (config : List (List Char × Server)) (f : ServerFlags)
    (hf : f.scheme = "pointPIR" ∨ f.scheme = "pointVPIR") (R : Running) (h : serverMain M config f = ok R)
    (hrows : 0 < R.info.numRows) (q : List Byte) (hq : 8 * q.length < R.info.numColumns) (s : Rpc.State)
    (hs : Rpc.Reach R.answer s) (hcl : s.closed = false) :
    (∃ s', Relation.ReflTransGen (Rpc.Step R.answer) s s' ∧ s'.crashed = true ∧ s'.closed = false) ∧
    ((∃ c ∈ s.calls, c.query = q) → (¬ ∃ s', Rpc.Sys R.answer s s') → s.crashed = true) := by
  obtain ⟨db, h1, h2⟩ := point_running hf h
  have hcr : (R.answer q).isCrash := by
    rw [h2]
    rw [h1] at hrows hq
    exact short_crash M.dpf db q hrows hq
  refine ⟨Rpc.C44_crashing_query_kills q hcr hs hcl, ?_⟩
  rintro ⟨c, hc, rfl⟩ hrest
  obtain ⟨i, hi, hic⟩ := List.getElem_of_mem hc
  exact Rpc.C76_crashing_query_is_fatal hs hcl hrest i c (by rw [List.getElem?_eq_getElem hi, hic]) hcr

/-- What a predicate server is. -/
theorem predicate_running {M : Machine} {config : List (List Char × Server)} {f : ServerFlags}
    (hf : f.scheme = "complexPIR" ∨ f.scheme = "complexVPIR") {R : Running} (h : serverMain M config f = ok R) :
    ∃ ex db, R.answer = predicateAnswer M (BitVec.ofInt 8 f.id) ex db := by
  unfold serverMain at h
  simp only [bind_eq_ok] at h
  obtain ⟨addrs, -, addr, -, r, hr, _, -, _, -, h⟩ := h
  simp only [ok.injEq] at h
  subst h
  unfold loadServer at hr
  rw [if_neg (by rcases hf with h | h <;> rw [h] <;> decide), if_neg (by rcases hf with h | h <;> rw [h] <;> decide),
    if_pos hf] at hr
  simp only [bind_eq_ok] at hr
  obtain ⟨keys, -, infos, -, hr⟩ := hr
  simp only [ok.injEq] at hr
  exact ⟨_, _, by rw [← hr]⟩

/-- C76: one call with a decodable query that asks for a sum, for an average without a conjunction, or for an unknown target
ends the process of a predicate server, whatever its database, its state and its other work. -/
theorem C76_unsupported_query_ends_server (M : Machine) (config : List (List Char × Server)) (f : ServerFlags)
    (hf : f.scheme = "complexPIR" ∨ f.scheme = "complexVPIR") (R : Running) (h : serverMain M config f = ok R)
    (q : List Byte) (m : Predicate.Msg) (hm : M.ungob q = ok m)
    (hu : m.info.sum = true ∨ (m.info.avg = true ∧ m.info.and = false) ∨
      (m.info.and = false ∧ m.info.avg = false ∧ 2 < m.info.target)) (s : Rpc.State) (hs : Rpc.Reach R.answer s)
    (hcl : s.closed = false) :
    (∃ s', Relation.ReflTransGen (Rpc.Step R.answer) s s' ∧ s'.crashed = true ∧ s'.closed = false) ∧
    ((∃ c ∈ s.calls, c.query = q) → (¬ ∃ s', Rpc.Sys R.answer s s') → s.crashed = true) := by
  obtain ⟨ex, db, h2⟩ := predicate_running hf h
  have hcr : (R.answer q).isCrash := by
    rw [h2]
    unfold predicateAnswer
    rw [hm, ok_bind]
    have := Predicate.C55_unsupported_queries_crash M.queryHash M.env M.now (BitVec.ofInt 8 f.id) db ex M.buf m hu
    cases ha : Predicate.answer M.queryHash M.env M.now (BitVec.ofInt 8 f.id) db ex M.buf m with
    | ok a => rw [ha] at this; simp at this
    | err e => rw [ha] at this; simp at this
    | crash e => simp
  refine ⟨Rpc.C44_crashing_query_kills q hcr hs hcl, ?_⟩
  rintro ⟨c, hc, rfl⟩ hrest
  obtain ⟨i, hi, hic⟩ := List.getElem_of_mem hc
  exact Rpc.C76_crashing_query_is_fatal hs hcl hrest i c (by rw [List.getElem?_eq_getElem hi, hic]) hcr

/-- C76: what cannot be decoded is answered with an error and does no harm: a predicate server to which nothing else is sent
stays up, and every call that is not cancelled returns the error. -/
theorem C76_garbage_partial (M : Machine) (config : List (List Char × Server)) (f : ServerFlags)
    (hf : f.scheme = "complexPIR" ∨ f.scheme = "complexVPIR") (R : Running) (h : serverMain M config f = ok R)
    (s : Rpc.State) (hs : Rpc.Reach R.answer s) (hcl : s.closed = false)
    (hg : ∀ c ∈ s.calls, ∃ e, M.ungob c.query = err e) :
    s.crashed = false ∧ ((¬ ∃ s', Rpc.Sys R.answer s s') → ∀ c ∈ s.calls, c.cancelled = false →
      ∃ e, M.ungob c.query = err e ∧ c.status = .returned (.error e)) := by
  obtain ⟨ex, db, h2⟩ := predicate_running hf h
  have he : ∀ c ∈ s.calls, ∃ e, M.ungob c.query = err e ∧ R.answer c.query = err e := by
    intro c hc
    obtain ⟨e, he⟩ := hg c hc
    exact ⟨e, he, by rw [h2]; unfold predicateAnswer; rw [he]; rfl⟩
  have hcr : s.crashed = false := Rpc.C76_stays_up hs hcl (by
    intro c hc
    obtain ⟨e, -, he⟩ := he c hc
    simp [he])
  refine ⟨hcr, ?_⟩
  intro hrest c hc hcan
  obtain ⟨i, hi, hic⟩ := List.getElem_of_mem hc
  obtain ⟨e, he1, he2⟩ := he c hc
  rcases Rpc.C44_all_return hs hcr hcl hrest i c (by rw [List.getElem?_eq_getElem hi, hic]) with ⟨a, h1, -⟩ | ⟨e', h1, h3⟩ | ⟨h1, -⟩
  · exact absurd (he2.symm.trans h1) (by simp)
  · have : e = e' := by simpa using he2.symm.trans h1
    exact ⟨e, he1, by rw [h3, this]⟩
  · rw [hcan] at h1; cases h1

/-! ### Starting the servers -/

/-- Servers that hold the keys: all of them answer from one database. -/
structure Up (L : Lib) (R C : Nat) (running : List Running) (addrs : List String) (db : Database.Bytes) : Prop where
  running : running = uniform (pointDbInfo db) (Point.answer L.dpf 0 db) addrs
  columns : db.info.numColumns = C
  rowsEq : db.info.numRows = R
  rows : 0 < db.info.numRows
  stores : ∃ blocks, Stores db blocks
  describable : Describable db

theorem start_bytes {L : Lib} (hh : HashLong L.hash) {servers : List (List Char × Server)} (hc : Config servers)
    (h0 : 0 < servers.length) (h5 : servers.length ≤ 5) {files : List (List Char × List Key)} (hf : InOrder files)
    {machine : Nat → Machine} {config : Nat → List (List Char × Server)}
    (hM : ∀ i, i < servers.length → Installed L files (machine i))
    (hp : ∀ i, i < servers.length → (config i).Perm servers) {k : Nat} (hk : k ≤ files.length)
    (h10 : 10 ≤ (keysIn files k).length) (h32 : (keysIn files k).length ≤ 2 ^ 32)
    (hnd : ((keysIn files k).map (·.id)).Nodup) {R C : Nat}
    (hd : calculateNumRowsAndColumns (preSquareNumBlocks (keysIn files k).length) true = (R, C))
    (hB : ∀ p, p < R * C → (packets (bucket L.hash (R * C) (keysIn files k) p)).length ≤ 2 ^ 32 - 2048) :
    ∃ running db, startAll machine config servers.length k "pointPIR" = ok running ∧
      Up L R C running (addresses servers) db := by
  have hM0 := hM 0 h0
  obtain ⟨db, hdb, hR, hC, hS⟩ := serves_bytes (H := L.H) hh hM0.sort hM0.order (keysIn files k) h10 h32 true hd
  have hdesc := describable_bytes hh hM0.sort hM0.order h10 h32 hd hB hdb
  obtain ⟨-, t2, -⟩ := table_size h32 true
  have t2 := t2 h10
  rw [hd] at t2
  have hl : ∀ i, i < servers.length → loadServer (machine i) ⟨(i : Nat), k, "pointPIR"⟩ =
      ok (pointDbInfo db, Point.answer L.dpf 0 db) := by
    intro i hi
    have hMi := hM i hi
    unfold loadServer
    rw [if_pos rfl]
    dsimp only
    rw [loadKeys_eq hf hMi hk, hMi.hash, hMi.dpf, orFatal_ok, ok_bind,
      C15_bytes L.hash (machine i).sort (machine 0).sort hMi.sort hM0.sort (machine i).order (machine 0).order hMi.order
        hM0.order (keysIn files k) (keysIn files k) (List.Perm.refl _) hnd true]
    rw [hdb, orFatal_ok, ok_bind]
  refine ⟨_, db, startAll_eq hc h5 hM hp hl, rfl, hC, hR, by rw [hR]; exact Nat.pos_of_mul_pos_right t2, ?_, hdesc⟩
  rcases hS with ⟨-, hS⟩ | hS
  · exact ⟨_, hS⟩
  · obtain ⟨-, st, hS, -⟩ := hS
    exact ⟨st, hS⟩

/-- The length of the queries of a lookup, for one server or more than two. -/
theorem lookup_query_length {L : Lib} {n : Nat} {info : DbInfo} {q : List Byte} (h0 : 0 < n) (h2 : n ≠ 2)
    (hC : 0 < info.numColumns) (h : LookupQuery L n info q) : q.length = info.numColumns / 8 + 1 := by
  obtain ⟨read, id, qs, st, hread, hq, hmem⟩ := h
  unfold lookupQueries at hq
  rw [bind_eq_ok] at hq
  obtain ⟨x, -, hq⟩ := hq
  unfold Point.queryBytes at hq
  rw [bind_eq_ok] at hq
  obtain ⟨w, -, hq⟩ := hq
  obtain ⟨rand, -, hl, hqq⟩ := Point.query_shares L.dpf hread (info := pointInfo info) (i := w.toNat) hC h0 h2
  rw [hqq] at hq
  simp only [ok.injEq, Prod.mk.injEq] at hq
  obtain ⟨rfl, -⟩ := hq
  exact Point.shares_mem_length hl q hmem

/-- C76 for the key lookups of honest clients: with one server, or three to five, each server stays up until it is shut down,
for any number of clients that look up any identifiers at the same time and may give up at any time; when a server has come
to rest every call that was not cancelled has returned an answer. Missing from the full claim: two servers, other queries
and shut-down, for which it is false. -/
theorem C76_lookups_partial (L : Lib) (hh : HashLong L.hash) (servers : List (List Char × Server)) (hc : Config servers)
    (hn : servers.length = 1 ∨ 3 ≤ servers.length ∧ servers.length ≤ 5) (files : List (List Char × List Key))
    (hf : InOrder files) (machine : Nat → Machine) (config : Nat → List (List Char × Server))
    (hM : ∀ i, i < servers.length → Installed L files (machine i))
    (hp : ∀ i, i < servers.length → (config i).Perm servers) (k : Nat) (hk : k ≤ files.length)
    (h10 : 10 ≤ (keysIn files k).length) (h32 : (keysIn files k).length ≤ 2 ^ 32)
    (hnd : ((keysIn files k).map (·.id)).Nodup) (R C : Nat)
    (hd : calculateNumRowsAndColumns (preSquareNumBlocks (keysIn files k).length) true = (R, C))
    (hB : ∀ p, p < R * C → (packets (bucket L.hash (R * C) (keysIn files k) p)).length ≤ 2 ^ 32 - 2048) :
    ∃ running, startAll machine config servers.length k "pointPIR" = ok running ∧ running.length = servers.length ∧
      ∀ P ∈ running, ∀ s, Rpc.Reach P.answer s → s.closed = false →
        (∀ c ∈ s.calls, LookupQuery L servers.length (transmit P.info) c.query) →
        s.crashed = false ∧ ((¬ ∃ s', Rpc.Sys P.answer s s') → ∀ c ∈ s.calls, c.cancelled = false →
          ∃ a, P.answer c.query = ok a ∧ c.status = .returned (.answer a)) := by
  obtain ⟨running, db, hst, hup⟩ := start_bytes hh hc (by omega) (by omega) hf hM hp hk h10 h32 hnd hd hB
  refine ⟨running, hst, by rw [hup.running]; simp [uniform, addresses], ?_⟩
  intro P hP s hs hcl hcalls
  rw [hup.running] at hP
  simp only [uniform, List.mem_map] at hP
  obtain ⟨a, -, rfl⟩ := hP
  obtain ⟨blocks, hb⟩ := hup.stores
  obtain ⟨-, t2, -⟩ := table_size h32 true
  have t2 := t2 h10
  rw [hd] at t2
  have hC : 0 < C := Nat.pos_of_mul_pos_left t2
  have hcol : (transmit (pointDbInfo db)).numColumns = C := by
    have := hup.describable.columns
    show db.info.numColumns % 2 ^ 32 = C
    rw [Nat.mod_eq_of_lt this, hup.columns]
  have hans : ∀ c ∈ s.calls, ∃ a, Point.answer L.dpf 0 db c.query = ok a := by
    intro c hc
    have := lookup_query_length (by omega) (by omega) (by rw [hcol]; exact hC) (hcalls c hc)
    rw [hcol] at this
    exact long_ok L.dpf hb c.query (by rw [hup.columns, this]; omega)
  have hcr : s.crashed = false := Rpc.C76_stays_up hs hcl (by
    intro c hc
    obtain ⟨a, ha⟩ := hans c hc
    simp [ha])
  refine ⟨hcr, ?_⟩
  intro hrest c hc hcan
  obtain ⟨i, hi, hic⟩ := List.getElem_of_mem hc
  obtain ⟨a, ha⟩ := hans c hc
  rcases Rpc.C44_all_return hs hcr hcl hrest i c (by rw [List.getElem?_eq_getElem hi, hic]) with h | ⟨e, h1, -⟩ | ⟨h1, -⟩
  · exact h
  · exact absurd (ha.symm.trans h1) (by simp)
  · rw [hcan] at h1; cases h1

/-- C76: with two servers a client that looks up a key, as it should, sends each server a query that ends its process, if the
DPF keys are shorter than one bit for each column, which is their purpose. -/
theorem C76_two_servers_end (L : Lib) (hh : HashLong L.hash) (servers : List (List Char × Server)) (hc : Config servers)
    (h2 : servers.length = 2) (files : List (List Char × List Key)) (hf : InOrder files) (machine : Nat → Machine)
    (config : Nat → List (List Char × Server)) (hM : ∀ i, i < 2 → Installed L files (machine i))
    (hp : ∀ i, i < 2 → (config i).Perm servers) (k : Nat) (hk : k ≤ files.length)
    (h10 : 10 ≤ (keysIn files k).length) (h32 : (keysIn files k).length ≤ 2 ^ 32)
    (hnd : ((keysIn files k).map (·.id)).Nodup) (R C : Nat)
    (hd : calculateNumRowsAndColumns (preSquareNumBlocks (keysIn files k).length) true = (R, C))
    (hB : ∀ p, p < R * C → (packets (bucket L.hash (R * C) (keysIn files k) p)).length ≤ 2 ^ 32 - 2048)
    (hshort : ∀ α logN k0 k1, L.dpf.gen α logN = ok (k0, k1) → 8 * k0.length < C ∧ 8 * k1.length < C) :
    ∃ running, startAll machine config 2 k "pointPIR" = ok running ∧ running.length = 2 ∧
      ∀ P ∈ running, ∀ q, LookupQuery L 2 (transmit P.info) q → ∀ s, Rpc.Reach P.answer s → s.closed = false →
        (∃ s', Relation.ReflTransGen (Rpc.Step P.answer) s s' ∧ s'.crashed = true ∧ s'.closed = false) ∧
        ((∃ c ∈ s.calls, c.query = q) → (¬ ∃ s', Rpc.Sys P.answer s s') → s.crashed = true) := by
  obtain ⟨running, db, hst, hup⟩ := start_bytes hh hc (by omega) (by omega) hf (fun i hi => hM i (by omega))
    (fun i hi => hp i (by omega)) hk h10 h32 hnd hd hB
  rw [h2] at hst
  refine ⟨running, hst, by rw [hup.running]; simp [uniform, addresses, h2], ?_⟩
  intro P hP q hq s hs hcl
  rw [hup.running] at hP
  simp only [uniform, List.mem_map] at hP
  obtain ⟨a, -, rfl⟩ := hP
  have hlen : 8 * q.length < db.info.numColumns := by
    rw [hup.columns]
    obtain ⟨read, id, qs, st, hread, hq, hmem⟩ := hq
    unfold lookupQueries at hq
    rw [bind_eq_ok] at hq
    obtain ⟨x, -, hq⟩ := hq
    unfold Point.queryBytes at hq
    rw [bind_eq_ok] at hq
    obtain ⟨w, -, hq⟩ := hq
    unfold Point.query at hq
    have hinv : Point.invalidQueryInputsIT (w.toNat : Int) ((2 : Nat) : Int) = false := by
      simp [Point.invalidQueryInputsIT]
    rw [hinv] at hq
    simp only [Bool.false_eq_true, if_false] at hq
    rw [bind_eq_ok] at hq
    obtain ⟨⟨ix, iy⟩, -, hq⟩ := hq
    rw [if_pos (by norm_num), bind_eq_ok] at hq
    obtain ⟨⟨k0, k1⟩, hg, hq⟩ := hq
    simp only [ok.injEq, Prod.mk.injEq] at hq
    obtain ⟨rfl, -⟩ := hq
    have := hshort _ _ k0 k1 hg
    simp only [List.mem_cons, List.not_mem_nil, or_false] at hmem
    rcases hmem with rfl | rfl
    · exact this.1
    · exact this.2
  have hcr : (Point.answer L.dpf 0 db q).isCrash := short_crash L.dpf db q hup.rows hlen
  refine ⟨Rpc.C44_crashing_query_kills q hcr hs hcl, ?_⟩
  rintro ⟨c, hc, rfl⟩ hrest
  obtain ⟨i, hi, hic⟩ := List.getElem_of_mem hc
  exact Rpc.C76_crashing_query_is_fatal hs hcl hrest i c (by rw [List.getElem?_eq_getElem hi, hic]) hcr

/-! ### Clients at the same time -/

theorem Spec.SameOrEnd.refl {α : Type} (r : Res α) : SameOrEnd r r := Or.inl rfl

theorem Spec.SameOrEnd.bind {α β : Type} {r r' : Res α} {f f' : α → Res β} (h : SameOrEnd r r') (hf : ∀ a, SameOrEnd (f a) (f' a)) :
    SameOrEnd (r >>= f) (r' >>= f') := by
  rcases h with rfl | h
  · cases r with
    | ok a => exact hf a
    | err m => exact Or.inl rfl
    | crash m => exact Or.inl rfl
  · cases r with
    | ok a => simp at h
    | err m => simp at h
    | crash m => exact Or.inr (by simp)

theorem Spec.SameOrEnd.mapM {α β : Type} {f f' : α → Res β} (h : ∀ a, SameOrEnd (f a) (f' a)) (l : List α) :
    SameOrEnd (l.mapM f) (l.mapM f') := by
  induction l with
  | nil => exact Or.inl rfl
  | cons a l ih =>
    rw [List.mapM_cons, List.mapM_cons]
    exact (h a).bind fun b => ih.bind fun c => .refl _

/-- Connections: same outcome, or an error. -/
theorem foldlM_sameOrErr {α σ : Type} {f f' : σ → α → Res σ} (h : ∀ s a, f s a = f' s a ∨ (f s a).isErr) :
    ∀ (l : List α) (s : σ), l.foldlM f s = l.foldlM f' s ∨ (l.foldlM f s).isErr := by
  intro l
  induction l with
  | nil => intro s; exact Or.inl rfl
  | cons a l ih =>
    intro s
    rw [List.foldlM_cons, List.foldlM_cons]
    rcases h s a with h | h
    · rw [h]
      cases f' s a with
      | ok b => exact ih b
      | err m => exact Or.inl rfl
      | crash m => exact Or.inl rfl
    · cases hf : f s a with
      | ok b => rw [hf] at h; simp at h
      | err m => exact Or.inr (by simp)
      | crash m => rw [hf] at h; simp at h

theorem orFatal_sameOrErr {α : Type} {r r' : Res α} (h : r = r' ∨ r.isErr) : SameOrEnd (orFatal r) (orFatal r') := by
  rcases h with rfl | h
  · exact .refl _
  · cases r with
    | ok a => simp at h
    | err m => exact Or.inr (by simp [orFatal])
    | crash m => simp at h

theorem orFatal_sameOrEnd {α : Type} {r r' : Res α} (h : SameOrEnd r r') : SameOrEnd (orFatal r) (orFatal r') := by
  rcases h with rfl | h
  · exact .refl _
  · cases r with
    | ok a => simp at h
    | err m => simp at h
    | crash m => exact Or.inr (by simp [orFatal])

section
variable {running : List Running} {net : Net} (hn : Behind running net)
include hn

theorem Spec.Behind.answer_same (a : String) (q : List Byte) :
    net.answer a q = (network running).answer a q ∨ (net.answer a q).isErr := by
  rcases hn.answer a q with ⟨m, h⟩ | ⟨R, b, hR, hb, s, i, c, hs, hc, rfl, hst⟩
  · exact Or.inr (by rw [h]; simp)
  · left
    have := Rpc.C44_reply_to_own_query hs i c hc _ hst
    simp only [network, hR]
    rw [hb]
    exact this.symm

theorem Spec.Behind.infos (S : Schedule) (servers : List String) :
    SameOrEnd (gatherInfos net S servers) (gatherInfos (network running) S servers) := by
  unfold gatherInfos
  refine (SameOrEnd.mapM (fun a => orFatal_sameOrErr ?_) servers).bind fun _ => .refl _
  rcases hn.info a with h | ⟨m, h⟩
  · exact Or.inl h
  · exact Or.inr (by rw [h]; simp)

theorem Spec.Behind.run (S : Schedule) (servers : List String) (qs : List (List Byte)) :
    SameOrEnd (runQueriesActor net S servers qs) (runQueriesActor (network running) S servers qs) := by
  unfold runQueriesActor
  exact (SameOrEnd.refl _).bind fun sent =>
    (SameOrEnd.mapM (fun m => orFatal_sameOrErr (hn.answer_same m.1 m.2)) sent).bind fun _ => .refl _

theorem Spec.Behind.connect (addrs : List String) :
    SameOrEnd (orFatal (connect net.dial addrs)) (orFatal (connect (network running).dial addrs)) := by
  apply orFatal_sameOrErr
  unfold Client.connect
  apply foldlM_sameOrErr
  intro s a
  rcases hn.dial a with h | ⟨m, h⟩
  · rw [h]; exact Or.inl rfl
  · rw [h]; exact Or.inr (by simp)

omit hn in
theorem lookup_sameOrEnd (L : Lib) (n : Nat) {run run' : List (List Byte) → Res (List (List Byte))}
    (h : ∀ qs, SameOrEnd (run qs) (run' qs)) (info : Database.Info) (id : Str) :
    SameOrEnd (Client.lookup L n run info id) (Client.lookup L n run' info id) := by
  unfold Client.lookup
  exact (SameOrEnd.refl _).bind fun x => (h x.1).bind fun _ => .refl _

omit hn in
theorem complex_sameOrEnd (W : Predicate.World) (gob : Predicate.Msg → List Byte) (ex n : Nat)
    {run run' : List (List Byte) → Res (List (List Byte))} (h : ∀ qs, SameOrEnd (run qs) (run' qs)) (q : ClientFSS) :
    SameOrEnd (complexResult W gob ex n run q) (complexResult W gob ex n run' q) := by
  unfold complexResult
  exact (SameOrEnd.refl _).bind fun x => (h _).bind fun _ => .refl _

/-- C76: what other clients do at the same time does not change what a client program shows: behind any network that passes
on what the processes return, in whatever states they are, each of the programs ends, or has the outcome it has when it is
alone. This is for any servers, any schedule and any request, statistics included. -/
theorem C76_other_clients :
    (∀ (L : Lib) (W : Predicate.World) (gob : Predicate.Msg → List Byte) (mk : Int → Time) (S : Schedule)
      (addrs : List String) (f : Flags) (typed : String),
      SameOrEnd (main L W gob mk net S addrs f typed) (main L W gob mk (network running) S addrs f typed)) ∧
    (∀ (L : Lib) (S : Schedule) (addrs : List String) (email : String),
      SameOrEnd (downloadKey L net S addrs email) (downloadKey L (network running) S addrs email)) ∧
    (∀ (L : Lib) (S : Schedule) (addrs : List String) (req : Cmd.Request),
      SameOrEnd (handleRetrieve L net S addrs req) (handleRetrieve L (network running) S addrs req)) ∧
    (∀ (W : Predicate.World) (gob : Predicate.Msg → List Byte) (mk : Int → Time) (S : Schedule) (addrs : List String)
      (c : Choice), SameOrEnd (showStats W gob mk net S addrs c) (showStats W gob mk (network running) S addrs c)) := by
  refine ⟨?_, ?_, ?_, ?_⟩
  · intro L W gob mk S addrs f typed
    unfold main
    refine (hn.connect addrs).bind fun conns => orFatal_sameOrEnd ?_
    unfold exec
    refine (hn.infos S conns).bind fun infos => (SameOrEnd.refl _).bind fun info => ?_
    have hr : ∀ qs, SameOrEnd (runQueries net S conns qs) (runQueries (network running) S conns qs) :=
      fun qs => hn.run S _ qs
    split
    · generalize (if f.id = "" then typed else f.id) = id
      simp only
      split
      · exact .refl _
      · exact (lookup_sameOrEnd L _ hr _ _).bind fun _ => .refl _
    · split
      · exact (SameOrEnd.refl _).bind fun q => (complex_sameOrEnd W gob _ _ hr q).bind fun _ => .refl _
      · split
        · exact (SameOrEnd.refl _).bind fun q => (complex_sameOrEnd W gob _ _ hr q).bind fun _ => .refl _
        · exact .refl _
  · intro L S addrs email
    have h : SameOrEnd (actorLookup L net S addrs (bytes email)) (actorLookup L (network running) S addrs (bytes email)) := by
      unfold actorLookup
      exact (hn.infos S addrs).bind fun _ => (SameOrEnd.refl _).bind fun _ => (SameOrEnd.refl _).bind fun _ =>
        lookup_sameOrEnd L _ (hn.run S addrs) _ _
    unfold downloadKey
    rcases h with h | h
    · rw [h]; exact .refl _
    · cases ha : actorLookup L net S addrs (bytes email) with
      | ok a => rw [ha] at h; simp at h
      | err m => rw [ha] at h; simp at h
      | crash m => exact Or.inr (by simp)
  · intro L S addrs req
    unfold handleRetrieve
    cases req.parse with
    | err m => exact .refl _
    | crash m => exact .refl _
    | ok u =>
      simp only
      split
      · exact .refl _
      · refine (hn.infos S addrs).bind fun infos => ?_
        cases getDBInfos infos with
        | err m => exact .refl _
        | crash m => exact .refl _
        | ok infos =>
          refine (SameOrEnd.refl _).bind fun info => ?_
          have h := lookup_sameOrEnd L addrs.length (hn.run S addrs) (pointInfo info) (bytes (req.value "email"))
          rcases h with h | h
          · rw [h]; exact .refl _
          · cases ha : Client.lookup L addrs.length (runQueriesActor net S addrs) (pointInfo info) (bytes (req.value "email")) with
            | ok a => rw [ha] at h; simp at h
            | err m => rw [ha] at h; simp at h
            | crash m => exact Or.inr (by simp)
  · intro W gob mk S addrs c
    unfold showStats getStats executeStatsQuery
    exact SameOrEnd.bind ((SameOrEnd.refl _).bind fun q => (hn.infos S addrs).bind fun _ => (SameOrEnd.refl _).bind fun _ =>
      (SameOrEnd.refl _).bind fun _ => complex_sameOrEnd W gob _ _ (hn.run S addrs) q) fun _ => .refl _

end

/-- C76 for a lookup while others use the servers too: a configured deployment of one server, or three to five, shows the
right key or ends, never another key, an empty page or "no key". Missing from the full claim: as for C64. -/
theorem C76_key_partial (L : Lib) (W : Predicate.World) (gob : Predicate.Msg → List Byte) (mk : Int → Time)
    (hread : Point.Delivers L.read) (hh : HashLong L.hash) (servers : List (List Char × Server)) (hc : Config servers)
    (hn : servers.length = 1 ∨ 3 ≤ servers.length ∧ servers.length ≤ 5) (files : List (List Char × List Key))
    (hf : InOrder files) (machine : Nat → Machine) (config : Nat → List (List Char × Server))
    (hM : ∀ i, i < servers.length → Installed L files (machine i))
    (hp : ∀ i, i < servers.length → (config i).Perm servers) (k : Nat) (hk : k ≤ files.length)
    (h10 : 10 ≤ (keysIn files k).length) (h32 : (keysIn files k).length ≤ 2 ^ 32)
    (hnd : ((keysIn files k).map (·.id)).Nodup) (R C : Nat)
    (hd : calculateNumRowsAndColumns (preSquareNumBlocks (keysIn files k).length) true = (R, C))
    (hB : ∀ p, p < R * C → (packets (bucket L.hash (R * C) (keysIn files k) p)).length ≤ 2 ^ 32 - 2048)
    (parse : Key → Entity) (hparse : Parses L.readRing parse (keysIn files k))
    (hnamed : NamedBy L.lower parse (keysIn files k)) :
    ∃ running, startAll machine config servers.length k "pointPIR" = ok running ∧
      ∀ cfg : List (List Char × Server), cfg.Perm servers → ∃ addrs, loadConfig cfg = ok addrs ∧
        ∀ S : Schedule, Fair S → ∀ net, Behind running net →
          ∀ key ∈ keysIn files k, ∀ (id : String) (a : List Byte), id ≠ "" → bytes id = key.id →
            L.armor (parse key) = ok a → ShowKeyOrEnd L W gob mk net S addrs id a := by
  obtain ⟨running, hst, h⟩ := C64_lookup_partial L W gob mk hread hh servers hc hn files hf machine config hM hp k hk h10 h32
    hnd R C hd hB parse hparse hnamed
  refine ⟨running, hst, fun cfg hcfg => ?_⟩
  obtain ⟨addrs, ha, -, h⟩ := h cfg hcfg
  refine ⟨addrs, ha, fun S hS net hnet key hkey id a hid hb harm => ?_⟩
  obtain ⟨s1, s2, s3⟩ := (h S hS).1 key hkey id a hid hb harm
  obtain ⟨c1, c2, c3, -⟩ := C76_other_clients hnet
  refine ⟨?_, ?_, ?_⟩
  · intro hno f typed hf hid
    rw [← s1 hno f typed hf hid]
    exact c1 L W gob mk S addrs f typed
  · rw [← s2]
    exact c2 L S addrs id
  · intro req h1 h2
    rw [← s3 req h1 h2]
    exact c3 L S addrs req

/-! ### Cases -/

theorem mapM_mem {α β : Type _} {f : α → Res β} {l : List α} {r : List β} (h : l.mapM f = ok r) {a : α} (ha : a ∈ l) :
    ∃ b ∈ r, f a = ok b := by
  induction l generalizing r with
  | nil => simp at ha
  | cons x l ih =>
    rw [List.mapM_cons] at h
    simp only [bind_eq_ok] at h
    obtain ⟨b, hb, c, hc, h⟩ := h
    simp only [pure, ok.injEq] at h
    subst h
    rcases List.mem_cons.mp ha with rfl | ha
    · exact ⟨b, by simp, hb⟩
    · obtain ⟨d, hd, hf⟩ := ih hc ha
      exact ⟨d, by simp [hd], hf⟩

theorem exUp (dpf : Point.Dpf) (n : Nat) (hn : 0 < n ∧ n ≤ 5) (hc : Config (exServers n)) : ∃ running db,
    startAll (fun _ => exMachine dpf) (fun _ => exServers n) n 2 "pointPIR" = ok running ∧
      Up (exLib dpf) 2 2 running (addresses (exServers n)) db := by
  have hl : (exServers n).length = n := by simp [exServers]
  obtain ⟨running, db, h⟩ := start_bytes (L := exLib dpf) lengthHash_long hc (by omega) (by omega) exFiles_inOrder
    (machine := fun _ => exMachine dpf) (config := fun _ => exServers n) (fun _ _ => exMachine_installed _)
    (fun _ _ => List.Perm.refl _) (k := 2) (by decide) (by rw [exFiles_keys]; decide) (by rw [exFiles_keys]; decide)
    (by rw [exFiles_keys]; decide) exFiles_dims exFiles_small
  rw [hl] at h
  exact ⟨running, db, h⟩

/-- C76 as claimed is false: an empty query ends a running server. -/
theorem C76_refuted : ¬ C76_Statement := by
  intro h
  obtain ⟨running, db, hst, hup⟩ := exUp Point.plainDpf 3 (by omega) exServers_config.1
  obtain ⟨r, hm, hr⟩ := mapM_mem hst (a := 0) (by decide)
  have h' : serverMain (exMachine Point.plainDpf) (exServers 3) ⟨0, 2, "pointPIR"⟩ = ok r := hr
  rw [hup.running] at hm
  simp only [uniform, List.mem_map] at hm
  obtain ⟨a, -, rfl⟩ := hm
  obtain ⟨s', hs', hc', ho⟩ := (C76_short_query_ends_server _ _ _ (Or.inl rfl) _ h' hup.rows []
    (by show 0 < db.info.numColumns; rw [hup.columns]; decide) _ Rpc.Reach.start rfl).1
  have := h _ _ _ _ h' s' (Rpc.reach_steps .start hs') ho
  rw [hc'] at this
  cases this

/-- Any answer a server computes, it returns to a client that calls it first. -/
theorem returns_alone {R : Running} {q b : List Byte} (h : R.answer q = ok b) : Returns R q b := by
  have h1 := Rpc.Reach.env _ _ (Rpc.Reach.start (work := R.answer)) (.arrive Rpc.start q rfl)
  have h2 := Rpc.Reach.sys _ _ h1 (.send _ 0 (Rpc.newCall q) rfl rfl rfl rfl (by simp [Rpc.start, Rpc.capacity]))
  have h3 := Rpc.Reach.sys _ _ h2 (.take _ 0 [] rfl rfl rfl)
  have h4 := Rpc.Reach.sys _ _ h3 (.answer _ 0 { Rpc.newCall q with status := .waiting } b rfl rfl rfl h rfl)
  have h5 := Rpc.Reach.sys _ _ h4 (.recvAnswer _ 0 { Rpc.newCall q with status := .waiting, answerCh := some b } b rfl rfl rfl rfl)
  exact ⟨_, 0, _, h5, rfl, rfl, rfl⟩

/-- The network in which a call to a server that panics fails. -/
def failing (running : List Running) : Net :=
  { network running with
    answer := fun a q => match (network running).answer a q with
      | crash m => err m
      | r => r }

theorem failing_behind (running : List Running) : Behind running (failing running) := by
  refine ⟨fun _ => Or.inl rfl, fun _ => Or.inl rfl, fun a q => ?_⟩
  simp only [failing, network]
  cases hf : running.find? (fun s => s.addr = a) with
  | none => exact Or.inl ⟨_, rfl⟩
  | some R =>
    simp only
    cases hq : R.answer q with
    | ok b => exact Or.inr ⟨R, b, rfl, rfl, returns_alone hq⟩
    | err m => exact Or.inl ⟨_, rfl⟩
    | crash m => exact Or.inl ⟨_, rfl⟩

/-- Three servers, each call of a client that looks up `[3, 1]` succeeds and the interactive client shows the key. -/
example : ∃ running, startAll (fun _ => exMachine Point.plainDpf) (fun _ => (exServers 3).reverse) 3 2 "pointPIR" = ok running ∧
    ∃ addrs, loadConfig (exServers 3).reverse = ok addrs ∧ Behind running (failing running) ∧
      ShowKeyOrEnd (exLib Point.plainDpf) exWorld (fun _ => []) dayTime (failing running) backwards addrs "\x03\x01" [3, 1] := by
  obtain ⟨running, hr, h⟩ := C76_key_partial (exLib Point.plainDpf) exWorld (fun _ => []) dayTime Point.sevens_delivers
    lengthHash_long (exServers 3) exServers_config.1 (Or.inr (by decide)) exFiles exFiles_inOrder
    (fun _ => exMachine Point.plainDpf) (fun _ => (exServers 3).reverse) (fun _ _ => exMachine_installed _)
    (fun _ _ => List.reverse_perm _) 2 (by decide) (by rw [exFiles_keys]; decide) (by rw [exFiles_keys]; decide)
    (by rw [exFiles_keys]; decide) 2 2 exFiles_dims exFiles_small (fun k => entityOf k.id)
    (by rw [exFiles_keys]; exact twenty_parses) (by rw [exFiles_keys]; exact twenty_named)
  obtain ⟨addrs, ha, hS⟩ := h (exServers 3).reverse (List.reverse_perm _)
  exact ⟨running, hr, addrs, ha, failing_behind running, hS backwards backwards_fair _ (failing_behind running) ⟨[3, 1], [3]⟩
    (by rw [exFiles_keys]; decide) "\x03\x01" [3, 1] (by decide) (by decide) rfl⟩

/-- Both DPF keys are empty. -/
def noKeyDpf : Point.Dpf := { Point.plainDpf with gen := fun _ _ => ok ([], []) }

theorem lookupQueries_dims (L : Lib) (n : Nat) (info : DbInfo) (id : Str) : lookupQueries L n (pointInfo info) id =
    lookupQueries L n (pointInfo ⟨info.numRows, info.numColumns, 0, "", [], 0⟩) id := rfl

/-- The queries of a client that looks up `[3, 1]`, in a table of two rows and columns: selection strings of one byte for
three servers, empty DPF keys for two. -/
theorem exLookup (info : DbInfo) (hR : info.numRows = 2) (hC : info.numColumns = 2) :
    LookupQuery (exLib Point.plainDpf) 3 info [7] ∧ LookupQuery (exLib noKeyDpf) 2 info [] := by
  refine ⟨⟨Point.sevens, [3, 1], [[7], [7], [1]], ⟨1, 0⟩, Point.sevens_delivers, ?_, by decide⟩,
    ⟨Point.sevens, [3, 1], [[], []], ⟨1, 0⟩, Point.sevens_delivers, ?_, by decide⟩⟩
  · rw [lookupQueries_dims, hR, hC]
    decide +kernel
  · rw [lookupQueries_dims, hR, hC]
    decide +kernel

/-- Three servers; two clients call one of them at the same time with lookup queries. The server stays up and is bound to
answer both. -/
example : ∃ running, startAll (fun _ => exMachine Point.plainDpf) (fun _ => exServers 3) 3 2 "pointPIR" = ok running ∧
    ∀ P ∈ running, ∃ s, Rpc.Reach P.answer s ∧ s.calls.map (·.query) = [[7], [7]] ∧ s.closed = false ∧
      (∀ c ∈ s.calls, LookupQuery (exLib Point.plainDpf) 3 (transmit P.info) c.query) ∧ s.crashed = false := by
  obtain ⟨running, hst, -, h⟩ := C76_lookups_partial (exLib Point.plainDpf) lengthHash_long (exServers 3) exServers_config.1
    (Or.inr (by decide)) exFiles exFiles_inOrder (fun _ => exMachine Point.plainDpf) (fun _ => exServers 3)
    (fun _ _ => exMachine_installed _) (fun _ _ => List.Perm.refl _) 2 (by decide) (by rw [exFiles_keys]; decide)
    (by rw [exFiles_keys]; decide) (by rw [exFiles_keys]; decide) 2 2 exFiles_dims exFiles_small
  refine ⟨running, hst, fun P hP => ?_⟩
  have h1 := Rpc.Reach.env _ _ (Rpc.Reach.start (work := P.answer)) (.arrive Rpc.start [7] rfl)
  have h2 := Rpc.Reach.env _ _ h1 (.arrive _ [7] rfl)
  obtain ⟨running', db, hst', hup⟩ := exUp Point.plainDpf 3 (by omega) exServers_config.1
  have : running' = running := by
    have := hst'.symm.trans hst
    simpa using this
  subst this
  have hq : LookupQuery (exLib Point.plainDpf) 3 (transmit P.info) [7] := by
    have hP' := hP
    rw [hup.running] at hP'
    simp only [uniform, List.mem_map] at hP'
    obtain ⟨a, -, rfl⟩ := hP'
    refine (exLookup _ ?_ ?_).1
    · show db.info.numRows % 2 ^ 32 = 2
      rw [hup.rowsEq]
      rfl
    · show db.info.numColumns % 2 ^ 32 = 2
      rw [hup.columns]
      rfl
  have hall : ∀ c ∈ [Rpc.newCall [7], Rpc.newCall [7]], LookupQuery (exLib Point.plainDpf) 3 (transmit P.info) c.query := by
    intro c hc
    simp only [List.mem_cons, List.not_mem_nil, or_false, or_self] at hc
    rw [hc]
    exact hq
  exact ⟨_, h2, rfl, rfl, hall, (h P hP _ h2 rfl hall).1⟩

/-- The hypotheses of `C76_two_servers_end`: two servers, of which each ends when it is asked for `[3, 1]`. -/
example : ∃ running, startAll (fun _ => exMachine noKeyDpf) (fun _ => exServers 2) 2 2 "pointPIR" = ok running ∧
    running.length = 2 ∧ ∀ P ∈ running, ∃ q s', LookupQuery (exLib noKeyDpf) 2 (transmit P.info) q ∧ Rpc.Reach P.answer s' ∧
      s'.crashed = true ∧ s'.closed = false := by
  obtain ⟨running, hst, hl, h⟩ := C76_two_servers_end (exLib noKeyDpf) lengthHash_long (exServers 2) exServers_config.2.2 rfl
    exFiles exFiles_inOrder (fun _ => exMachine noKeyDpf) (fun _ => exServers 2) (fun _ _ => exMachine_installed _)
    (fun _ _ => List.Perm.refl _) 2 (by decide) (by rw [exFiles_keys]; decide) (by rw [exFiles_keys]; decide)
    (by rw [exFiles_keys]; decide) 2 2 exFiles_dims exFiles_small (by
      intro α logN k0 k1 hg
      simp only [exLib, noKeyDpf, ok.injEq, Prod.mk.injEq] at hg
      rw [← hg.1, ← hg.2]
      decide)
  obtain ⟨running', db, hst', hup⟩ := exUp noKeyDpf 2 (by omega) exServers_config.2.2
  have : running' = running := by
    have := hst'.symm.trans hst
    simpa using this
  subst this
  refine ⟨running', hst, hl, fun P hP => ?_⟩
  have hq : LookupQuery (exLib noKeyDpf) 2 (transmit P.info) [] := by
    have hP' := hP
    rw [hup.running] at hP'
    simp only [uniform, List.mem_map] at hP'
    obtain ⟨a, -, rfl⟩ := hP'
    refine (exLookup _ ?_ ?_).2
    · show db.info.numRows % 2 ^ 32 = 2
      rw [hup.rowsEq]
      rfl
    · show db.info.numColumns % 2 ^ 32 = 2
      rw [hup.columns]
      rfl
  obtain ⟨⟨s', h1, h2, h3⟩, -⟩ := h P hP [] hq _ Rpc.Reach.start rfl
  exact ⟨[], s', hq, Rpc.reach_steps .start h1, h2, h3⟩

/-- A machine that decodes one query: the empty one asks for a sum. -/
def sumMachine : Machine := { exMachine Point.plainDpf with
  ungob := fun q => if q = [] then ok ⟨⟨0, 0, 0, false, false, true⟩, ⟨[], 0, [], []⟩⟩ else err "not a query" }

/-- The hypotheses of `C76_unsupported_query_ends_server` and `C76_garbage_partial`. -/
example : ∃ R, serverMain sumMachine (exServers 3) ⟨1, 2, "complexVPIR"⟩ = ok R ∧
    (∃ s', Rpc.Reach R.answer s' ∧ s'.crashed = true ∧ s'.closed = false) ∧
    (∃ s', Rpc.Reach R.answer s' ∧ s'.calls.map (·.query) = [[1], [2]] ∧ s'.crashed = false ∧ s'.closed = false) := by
  have hi : Installed (exLib Point.plainDpf) exFiles sumMachine :=
    ⟨rfl, rfl, rfl, sortDesc_sorts, reversed_fair, List.reverse_perm _, fun _ => rfl⟩
  obtain ⟨r, hr⟩ : ∃ r, loadServer sumMachine ⟨(1 : Nat), (2 : Nat), "complexVPIR"⟩ = ok r := by
    obtain ⟨infos, hinfos, -⟩ := Point.mapM_ok (l := sumMachine.sort twenty)
      (f := fun k => match getKeyInfoFromPacket sumMachine.readRing sumMachine.timeOf sumMachine.algoOf k.packet with
        | ok x => ok x
        | err m => crash m
        | crash m => crash m) (by
        intro x hx
        have hx : x ∈ twenty := (sortDesc_sorts _).1.mem_iff.mp hx
        have hp := twenty_parses [x] (by simp) (by simpa using hx)
        simp only [packets, List.flatMap_cons, List.flatMap_nil, List.append_nil, List.map_cons, List.map_nil] at hp
        unfold getKeyInfoFromPacket
        rw [show sumMachine.readRing = ringOfBytes from rfl, hp]
        exact ⟨_, rfl⟩)
    have hg : generateRealKeyDB (getKeyInfoFromPacket sumMachine.readRing sumMachine.timeOf sumMachine.algoOf) sumMachine.sort
        twenty = ok infos := hinfos
    unfold loadServer
    dsimp only
    rw [loadKeys_eq exFiles_inOrder hi (by decide), if_neg (by decide), if_neg (by decide), if_pos (Or.inr rfl), orFatal_ok,
      ok_bind, exFiles_keys, hg, ok_bind]
    exact ⟨_, rfl⟩
  have hR := serverMain_eq hi exServers_config.1 (List.Perm.refl _) (i := 1) (by decide) (by decide) _ _ r hr
  refine ⟨_, hR, ?_⟩
  generalize (⟨_, r.1, r.2⟩ : Running) = R at hR
  refine ⟨?_, ?_⟩
  · obtain ⟨⟨s', h1, h2, h3⟩, -⟩ := C76_unsupported_query_ends_server _ _ _ (Or.inr rfl) R hR [] _ rfl (Or.inl rfl) _
      Rpc.Reach.start rfl
    exact ⟨s', Rpc.reach_steps .start h1, h2, h3⟩
  · have h1 := Rpc.Reach.env _ _ (Rpc.Reach.start (work := R.answer)) (.arrive Rpc.start [1] rfl)
    have h2 := Rpc.Reach.env _ _ h1 (.arrive _ [2] rfl)
    refine ⟨_, h2, rfl, (C76_garbage_partial _ _ _ (Or.inr rfl) R hR _ h2 rfl ?_).1, rfl⟩
    intro c hc
    simp only [Rpc.start, List.nil_append, List.cons_append, List.mem_cons, List.not_mem_nil, or_false] at hc
    rcases hc with rfl | rfl
    · exact ⟨_, rfl⟩
    · exact ⟨_, rfl⟩

end Verif.Deploy
