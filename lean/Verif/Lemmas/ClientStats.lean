import Verif.Lemmas.Client
import Verif.Props.PredicateAvg
import Verif.Props.PredicateMac

/-! # Lemmas on the counting queries of the client programs -/

set_option linter.unusedSimpArgs false

namespace Verif.Predicate
open Res Verif.Field Verif.Fss Verif.Query

/-! ### Length of the answers -/

theorem setAt_len {α : Type _} {l l' : List α} {i : Nat} {x : α} (h : setAt l i x = ok l') : l'.length = l.length := by
  unfold setAt at h
  split at h
  · simp only [ok.injEq] at h; rw [← h, List.length_set]
  · cases h

theorem accumulate_length {out tmp out' : List U32} (h : accumulate out tmp = ok out') : out'.length = out.length := by
  unfold accumulate at h
  exact forLoop_inv_ok (fun _ (o : List U32) => o.length = out.length) rfl (by
    intro i t t' _ ht hb
    simp only [bind_eq_ok] at hb
    obtain ⟨o, -, u, -, hs⟩ := hb
    rw [setAt_len hs, ht]) h

theorem accumulateAvg_length {out sum tmp : List U32} {d : Int} {r : List U32 × List U32}
    (h : accumulateAvg out sum tmp d = ok r) : r.1.length = out.length ∧ r.2.length = sum.length := by
  unfold accumulateAvg at h
  exact forLoop_inv_ok (fun _ (o : List U32 × List U32) => o.1.length = out.length ∧ o.2.length = sum.length) ⟨rfl, rfl⟩ (by
    intro i t t' _ ht hb
    simp only [bind_eq_ok] at hb
    obtain ⟨o, -, u, -, o', hs, x, -, s', hs', hr⟩ := hb
    simp only [ok.injEq] at hr
    subst hr
    exact ⟨by rw [setAt_len hs, ht.1], by rw [setAt_len hs', ht.2]⟩) h

theorem countLoop_length {env : Nat → Env} {sn : Byte} {db : KeyDB} {k : Key} {sel : KeyInfo → Res (Option (List Bool))}
    {s s' : Acc} (h : countLoop env sn db k sel s = ok s') : s'.out.length = s.out.length := by
  unfold countLoop at h
  exact forLoop_inv_ok (fun _ (t : Acc) => t.out.length = s.out.length) rfl (by
    intro i t t' _ ht hb
    simp only [bind_eq_ok] at hb
    obtain ⟨ki, -, id, -, hb⟩ := hb
    cases id with
    | none =>
      simp only [ok.injEq] at hb
      rw [← hb, ht]
    | some id =>
      simp only [bind_eq_ok] at hb
      obtain ⟨⟨tmp, buf⟩, -, out, ho, hb⟩ := hb
      simp only [ok.injEq] at hb
      rw [← hb, accumulate_length ho, ht]) h

theorem avgLoop_length {env : Nat → Env} {now : Nat → Int} {sn : Byte} {db : KeyDB} {k : Key}
    {sel : KeyInfo → Res (Option (List Bool))} {s : Acc} {sum : List U32} {r : Acc × List U32}
    (h : avgLoop env now sn db k sel s sum = ok r) : r.1.out.length = s.out.length ∧ r.2.length = sum.length := by
  unfold avgLoop at h
  exact forLoop_inv_ok (fun _ (t : Acc × List U32) => t.1.out.length = s.out.length ∧ t.2.length = sum.length)
    ⟨rfl, rfl⟩ (by
    intro i t t' _ ht hb
    simp only [bind_eq_ok] at hb
    obtain ⟨ki, -, id, -, hb⟩ := hb
    cases id with
    | none =>
      simp only [ok.injEq] at hb
      rw [← hb]
      exact ht
    | some id =>
      simp only [bind_eq_ok] at hb
      obtain ⟨⟨tmp, buf⟩, -, hb⟩ := hb
      dsimp only at hb
      split at hb
      · simp only [ok.injEq] at hb
        rw [← hb]
        exact ht
      · rw [bind_eq_ok] at hb
        obtain ⟨⟨out, sum'⟩, ho, hb⟩ := hb
        simp only [ok.injEq] at hb
        have := accumulateAvg_length ho
        rw [← hb]
        exact ⟨by rw [this.1, ht.1], by rw [this.2, ht.2]⟩) h

theorem answer_length {hash : List Byte → List Byte} {env : Nat → Env} {now : Nat → Int} {sn : Byte} {db : KeyDB}
    {n : Nat} {buf : List Byte} {q : Msg} {r : List U32 × List Byte} (h : answer hash env now sn db n buf q = ok r) :
    r.1.length = if q.info.and && q.info.avg then 2 * n else n := by
  have hcount : ∀ sel : KeyInfo → Res (Option (List Bool)),
      (do let s ← countLoop env sn db q.key sel ⟨List.replicate n 0, List.replicate n 0, buf⟩
          ok (s.out, s.buf)) = ok r → r.1.length = n := by
    intro sel h
    rw [bind_eq_ok] at h
    obtain ⟨s, hs, h⟩ := h
    simp only [ok.injEq] at h
    rw [← h]
    have := countLoop_length hs
    simpa using this
  unfold answer at h
  dsimp only at h
  cases h1 : q.info.and <;> cases h2 : q.info.avg <;> cases h3 : q.info.sum <;>
    simp only [h1, h2, h3, Bool.not_true, Bool.not_false, Bool.and_true, Bool.and_false, Bool.true_and, Bool.false_and,
      Bool.false_eq_true, if_true, if_false] at h ⊢
  · split at h
    · exact hcount _ h
    · exact hcount _ h
    · exact hcount _ h
    · cases h
  · cases h
  · cases h
  · cases h
  · exact hcount _ h
  · cases h
  · rw [bind_eq_ok] at h
    obtain ⟨⟨s, sum⟩, hs, h⟩ := h
    simp only [ok.injEq] at h
    rw [← h]
    have := avgLoop_length hs
    simp only [List.length_replicate] at this
    simp only [List.length_append, this.1, this.2]
    omega
  · cases h

/-- What a server sends decodes to a list whose length depends only on the kind of query. -/
theorem serve_words {W : World} {sn : Byte} {ex : Nat} {db : KeyDB} {m : Msg} {b : List Byte}
    (h : W.serve sn ex db m = ok b) : ∃ a, Utils.byteSliceToUint32Slice b = ok a ∧
      a.length = if m.info.and && m.info.avg then 2 * ex else ex := by
  have key : ∀ {r : Res (List U32 × List Byte)},
      (∀ x, r = ok x → x.1.length = if m.info.and && m.info.avg then 2 * ex else ex) →
      (r >>= fun x => Utils.uint32SliceToByteSlice x.1) = ok b → ∃ a, Utils.byteSliceToUint32Slice b = ok a ∧
        a.length = if m.info.and && m.info.avg then 2 * ex else ex := by
    intro r hr h
    rw [bind_eq_ok] at h
    obtain ⟨⟨a, buf⟩, ha, h⟩ := h
    dsimp only at h
    obtain ⟨b', hb', hd⟩ := words_roundtrip a
    rw [hb'] at h
    simp only [ok.injEq] at h
    subst h
    exact ⟨a, hd, hr _ ha⟩
  unfold World.serve at h
  dsimp only at h
  split at h
  · exact key (fun x hx => answer_length hx) h
  · exact key (fun x hx => answer_length hx) h

/-- Answers of honest servers to the two messages of a query can arrive in any order. -/
theorem served_order {W : World} {sn sn' : Byte} {ex : Nat} {db : KeyDB} {m m' : Msg} (hi : m.info = m'.info)
    {b b' : List Byte} (h : W.serve sn ex db m = ok b) (h' : W.serve sn' ex db m' = ok b') (st : State) :
    reconstructBytes ex st [b, b'] = reconstructBytes ex st [b', b] := by
  obtain ⟨a, ha, hl⟩ := serve_words h
  obtain ⟨a', ha', hl'⟩ := serve_words h'
  rw [reconstructBytes_words ex st a a' b b' ha ha', reconstructBytes_words ex st a' a b' b ha' ha]
  exact C05_predicate_order_partial ex st a a' (by rw [hl, hl', hi])

end Verif.Predicate

namespace Verif.Client
open Res Verif.Cmd Verif.Query Verif.Client.Spec Verif.Predicate

theorem perm_pair {α : Type _} {l : List α} {a b : α} (h : l.Perm [a, b]) : l = [a, b] ∨ l = [b, a] := by
  have hl := h.length_eq
  obtain ⟨x, y, rfl⟩ := List.length_eq_two.mp hl
  have hx : x ∈ [a, b] := h.mem_iff.mp (by simp)
  simp only [List.mem_cons, List.not_mem_nil, or_false] at hx
  rcases hx with rfl | rfl
  · left
    have := (List.perm_cons _).mp h
    rw [List.perm_singleton.mp this]
  · right
    have h2 : [x, y].Perm [x, a] := h.trans (List.Perm.swap x a [])
    have := (List.perm_cons _).mp h2
    rw [List.perm_singleton.mp this]

/-- A query that the two servers answer, with the connections in either order. -/
theorem complex_run {net : Net} {S : Schedule} (hS : Fair S) {W : World} {gob : Msg → List Byte} {ex : Nat} {db : KeyDB}
    {info : DbInfo} {a0 a1 : String} (hnet : PredicateServers net W gob ex db info a0 a1) {q : ClientFSS}
    {inOrder : Bool} {n : U32} (h : W.run ex db q inOrder = ok n) :
    complexResult W gob ex 2 (runQueriesActor net S (if inOrder then [a0, a1] else [a1, a0])) q = ok n := by
  unfold World.run at h
  simp only [bind_eq_ok] at h
  obtain ⟨⟨ms, st, rnd, buf⟩, hq, m0, hm0, m1, hm1, b0, hb0, b1, hb1, hrec⟩ := h
  have hms : ∃ x y : Msg, ms = [x, y] ∧ x.info = y.info := by
    unfold Predicate.query at hq
    rw [if_neg (by decide)] at hq
    simp only [bind_eq_ok] at hq
    obtain ⟨⟨st', rnd'⟩, -, ⟨k0, k1, buf'⟩, -, hq⟩ := hq
    simp only [ok.injEq, Prod.mk.injEq] at hq
    exact ⟨_, _, hq.1.symm, rfl⟩
  obtain ⟨x, y, rfl, hxy⟩ := hms
  unfold complexResult
  have hq2 : Predicate.query W.env W.fuel ex W.rnd W.buf W.r1 W.r2 q ((2 : Nat) : Int) =
      ok ([x, y], st, rnd, buf) := hq
  rw [hq2, ok_bind]
  dsimp only
  have hrun : ∀ {s t : String} {u v : List Byte}, net.answer s (gob x) = ok u → net.answer t (gob y) = ok v →
      runQueriesActor net S [s, t] ([x, y].map gob) = ok (S.answers [u, v]) := by
    intro s t u v hu hv
    unfold runQueriesActor
    rw [sends_eq _ _ (by simp), ok_bind]
    simp [List.mapM_cons, hu, hv, pure_eq]
  cases inOrder with
  | true =>
    simp only [if_true] at hm0 hm1 ⊢
    obtain rfl : m0 = x := by simpa [idx] using hm0.symm
    obtain rfl : m1 = y := by simpa [idx] using hm1.symm
    rw [hrun (by rw [hnet.answer0]; exact hb0) (by rw [hnet.answer1]; exact hb1), ok_bind]
    rcases perm_pair (hS.answers [b0, b1]) with e | e <;> rw [e]
    · exact hrec
    · rw [← served_order hxy hb0 hb1]; exact hrec
  | false =>
    simp only [Bool.false_eq_true, if_false] at hm0 hm1 ⊢
    obtain rfl : m0 = y := by simpa [idx] using hm0.symm
    obtain rfl : m1 = x := by simpa [idx] using hm1.symm
    rw [hrun (by rw [hnet.answer1]; exact hb1) (by rw [hnet.answer0]; exact hb0), ok_bind]
    rcases perm_pair (hS.answers [b1, b0]) with e | e <;> rw [e]
    · rw [← served_order hxy.symm hb0 hb1]; exact hrec
    · exact hrec

/-- The interactive and the web client. -/
theorem stats_run {net : Net} {S : Schedule} (hS : Fair S) {W : World} {gob : Msg → List Byte} {db : KeyDB}
    {info : DbInfo} {a0 a1 : String} (hnet : PredicateServers net W gob (Field.concurrentExecutions + 1) db info a0 a1)
    {q : ClientFSS} {n : U32} (h : W.run (Field.concurrentExecutions + 1) db q true = ok n) :
    executeStatsQuery W gob net S [a0, a1] q = ok n := by
  unfold executeStatsQuery
  have hg : gatherInfos net S [a0, a1] = ok (List.replicate 2 info) :=
    gather_eq hS (i := info) (servers := [a0, a1]) (by
      intro a ha
      simp only [List.mem_cons, List.not_mem_nil, or_false] at ha
      rcases ha with rfl | rfl
      · exact hnet.info0
      · exact hnet.info1)
  rw [hg, ok_bind, getDBInfos_replicate (by decide), ok_bind,
    show idx (List.replicate 2 info) 0 = ok info from rfl, ok_bind, List.length_replicate]
  exact complex_run hS hnet (inOrder := true) h

/-- The messages of a query. -/
theorem query_two {W : World} {ex : Nat} {q : ClientFSS} {ms : List Msg} {st : State} {rnd : Rand.Prg} {buf : List Byte}
    (h : Predicate.query W.env W.fuel ex W.rnd W.buf W.r1 W.r2 q 2 = ok (ms, st, rnd, buf)) :
    ∃ x y : Msg, ms = [x, y] ∧ x.info = y.info := by
  unfold Predicate.query at h
  rw [if_neg (by decide)] at h
  simp only [bind_eq_ok] at h
  obtain ⟨⟨st', rnd'⟩, -, ⟨k0, k1, buf'⟩, -, h⟩ := h
  simp only [ok.injEq, Prod.mk.injEq] at h
  exact ⟨_, _, h.1.symm, rfl⟩

/-- A query that cannot be answered in an exchange ends the program. -/
theorem complex_crash {net : Net} {S : Schedule} (hS : Fair S) {W : World} {gob : Msg → List Byte} {ex : Nat} {db : KeyDB}
    {info : DbInfo} {a0 a1 : String} (hnet : PredicateServers net W gob ex db info a0 a1) {q : ClientFSS}
    (h : (W.run ex db q true).isCrash) :
    (complexResult W gob ex 2 (runQueriesActor net S [a0, a1]) q).isCrash := by
  unfold World.run at h
  unfold complexResult
  cases hq : Predicate.query W.env W.fuel ex W.rnd W.buf W.r1 W.r2 q 2 with
  | err m => rw [hq] at h; simp at h
  | crash m =>
    simp
  | ok r =>
    obtain ⟨ms, st, rnd, buf⟩ := r
    rw [hq] at h
    simp only [ok_bind] at h ⊢
    obtain ⟨x, y, rfl, hxy⟩ := query_two hq
    simp only [if_true] at h
    rw [show idx [x, y] 0 = ok x from rfl, ok_bind, show idx [x, y] 1 = ok y from rfl, ok_bind] at h
    unfold runQueriesActor
    rw [sends_eq _ _ (by simp), ok_bind]
    simp only [List.map_cons, List.map_nil, List.zip_cons_cons, List.zip_nil_right, List.mapM_cons, List.mapM_nil,
      hnet.answer0, hnet.answer1]
    cases h0 : W.serve 0 ex db x with
    | err m => simp [orFatal]
    | crash m => simp [orFatal]
    | ok b0 =>
      rw [h0, ok_bind] at h
      cases h1 : W.serve 1 ex db y with
      | err m => simp [orFatal]
      | crash m => simp [orFatal]
      | ok b1 =>
        rw [h1, ok_bind] at h
        simp only [orFatal, ok_bind, pure_eq]
        rcases perm_pair (hS.answers [b0, b1]) with e | e <;> rw [e]
        · exact h
        · rw [← served_order hxy h0 h1]; exact h

theorem stats_infos {net : Net} {S : Schedule} (hS : Fair S) {W : World} {gob : Msg → List Byte} {db : KeyDB}
    {info : DbInfo} {a0 a1 : String} (hnet : PredicateServers net W gob (Field.concurrentExecutions + 1) db info a0 a1)
    (q : ClientFSS) : executeStatsQuery W gob net S [a0, a1] q =
      complexResult W gob (Field.concurrentExecutions + 1) 2 (runQueriesActor net S [a0, a1]) q := by
  unfold executeStatsQuery
  have hg : gatherInfos net S [a0, a1] = ok (List.replicate 2 info) :=
    gather_eq hS (i := info) (servers := [a0, a1]) (by
      intro a ha
      simp only [List.mem_cons, List.not_mem_nil, or_false] at ha
      rcases ha with rfl | rfl
      · exact hnet.info0
      · exact hnet.info1)
  rw [hg, ok_bind, getDBInfos_replicate (by decide), ok_bind,
    show idx (List.replicate 2 info) 0 = ok info from rfl, ok_bind, List.length_replicate]

/-- The command-line client, with the connections enumerated in either order. -/
theorem main_run {net : Net} {S : Schedule} (hS : Fair S) {W : World} {gob : Msg → List Byte} {ex : Nat} {db : KeyDB}
    {info : DbInfo} {a0 a1 : String} (hnet : PredicateServers net W gob ex db info a0 a1) (hne : a0 ≠ a1) {L : Lib}
    {mk : Int → Time} {f : Flags} {typed : String}
    (hf : f.scheme = "complexPIR" ∧ ex = 1 ∨ f.scheme = "complexVPIR" ∧ ex = Field.concurrentExecutions + 1)
    {q : ClientFSS} (hq : complexQuery W.hash mk f = ok q) {inOrder : Bool}
    (hc : S.conns [a0, a1] = if inOrder then [a0, a1] else [a1, a0]) {n : U32}
    (h : W.run ex db q inOrder = ok n) : main L W gob mk net S [a0, a1] f typed = ok (.count n) := by
  unfold main
  rw [connect_nodup (l := [a0, a1]) (by
    intro a ha
    simp only [List.mem_cons, List.not_mem_nil, or_false] at ha
    rcases ha with rfl | rfl
    · exact hnet.dial0
    · exact hnet.dial1) (by simp [hne])]
  have hg : gatherInfos net S [a0, a1] = ok (List.replicate 2 info) :=
    gather_eq hS (i := info) (servers := [a0, a1]) (by
      intro a ha
      simp only [List.mem_cons, List.not_mem_nil, or_false] at ha
      rcases ha with rfl | rfl
      · exact hnet.info0
      · exact hnet.info1)
  have hrun : complexResult W gob ex 2 (runQueries net S [a0, a1]) q = ok n := by
    have : runQueries net S [a0, a1] = runQueriesActor net S (if inOrder then [a0, a1] else [a1, a0]) := by
      funext qs
      unfold runQueries
      rw [hc]
    rw [this]
    exact complex_run hS hnet h
  simp only [orFatal, ok_bind]
  unfold exec
  rw [hg, ok_bind, retrieve_replicate (by decide), ok_bind]
  rcases hf with ⟨hs, rfl⟩ | ⟨hs, rfl⟩
  · rw [hs, if_neg (by decide), if_pos rfl, hq, ok_bind]
    simp only [List.length_cons, List.length_nil, Nat.zero_add, Nat.reduceAdd]
    rw [hrun]
    rfl
  · rw [hs, if_neg (by decide), if_neg (by decide), if_pos rfl, hq, ok_bind]
    simp only [List.length_cons, List.length_nil, Nat.zero_add, Nat.reduceAdd]
    rw [hrun]
    rfl

end Verif.Client
