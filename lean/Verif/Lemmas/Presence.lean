import Verif.Spec.Presence
import Verif.Lemmas.History
import Verif.Props.ClientPrivacy
import Verif.Props.Agreement
import Verif.Lemmas.Web

/-! # Lookups of the interactive and the web client: what the messages are and when the process ends -/

namespace Verif.Presence
open Res Verif.Cmd Verif.Client Verif.Client.Spec Verif.Web Verif.Interactive Verif.Pgp Verif.Pgp.Spec Verif.Point
  Verif.Point.Spec Verif.Privacy Verif.Reaction Verif.History

theorem gather_same (s : Scene) (t : Tactic) (v : Mail) :
    gatherInfos (s.net t v) t.order s.servers = gatherInfos (s.net t []) t.order s.servers := rfl

/-- What the servers say about the database either stops the client at once, or leads to the numbers of rows and columns of the
honest servers. -/
theorem infos_cases {s : Scene} {blocks : List (List Byte)} (hs : s.Sound blocks) {t : Tactic} (hf : Fair t.order) :
    (∃ m, gatherInfos (s.net t []) t.order s.servers = crash m) ∨
    (∃ infos, gatherInfos (s.net t []) t.order s.servers = ok infos ∧ ∃ m, getDBInfos infos = err m) ∨
    (∃ infos info, gatherInfos (s.net t []) t.order s.servers = ok infos ∧ getDBInfos infos = ok infos ∧ idx infos 0 = ok info ∧
      info.numRows = s.db.info.numRows ∧ info.numColumns = s.db.info.numColumns ∧ info.blockSize = s.db.info.blockSize) := by
  obtain ⟨b, hb, hmb⟩ := hs.outsider
  cases hg : gatherInfos (s.net t []) t.order s.servers with
  | err m => exact absurd hg (gatherInfos_not_err _ _ _ m)
  | crash m => exact Or.inl ⟨m, rfl⟩
  | ok infos =>
    right
    unfold gatherInfos at hg
    rw [bind_eq_ok] at hg
    obtain ⟨l, hl, hg⟩ := hg
    cases hg
    obtain ⟨i, hi, hbi⟩ := mapM_has hl b hb
    rw [orFatal_iff] at hbi
    have hbi' : transmit (report s.db) = i := by
      have : (s.net t []).info b = ok (transmit (report s.db)) := by
        show (if s.member b then t.infos b else ok (transmit (report s.db))) = _
        rw [hmb]
        rfl
      rw [this] at hbi
      exact ok.inj hbi
    have hmem : i ∈ t.order.infos l := (hf.infos l).mem_iff.2 hi
    by_cases he : equalDBInfo (t.order.infos l) = true
    · right
      cases hc : t.order.infos l with
      | nil => rw [hc] at hmem; simp at hmem
      | cons info rest =>
        have h := (equal_iff _).1 he info (by rw [hc]; simp) i hmem
        refine ⟨info :: rest, info, by simp, ?_, rfl, ?_, ?_, ?_⟩
        · unfold getDBInfos
          rw [if_neg (by rw [← hc, he]; simp)]
          rfl
        · rw [h.1, ← hbi']
          exact Nat.mod_eq_of_lt hs.describable.rows
        · rw [h.2.1, ← hbi']
          exact Nat.mod_eq_of_lt hs.describable.columns
        · rw [h.2.2, ← hbi']
          exact Nat.mod_eq_of_lt hs.describable.block
    · left
      refine ⟨_, rfl, "db not equal", ?_⟩
      unfold getDBInfos
      rw [if_pos (by simpa using he)]

/-- Once the members have got the messages `v`, a call to one of them fails. -/
def Fails (s : Scene) (t : Tactic) (v : Mail) : Prop := ∃ a ∈ s.servers, s.member a = true ∧ ∀ r, t.replies v a ≠ ok r

theorem columns_pos {s : Scene} {blocks : List (List Byte)} (hs : s.Sound blocks) : 0 < s.db.info.numColumns := by
  rcases Nat.eq_zero_or_pos s.db.info.numColumns with h | h
  · have := hs.cells
    rw [h, Nat.mul_zero] at this
    simp at this
  · exact h

/-- The column that an e-mail is looked up in. -/
theorem queries_fixed {s : Scene} {blocks : List (List Byte)} (hs : s.Sound blocks) {info : DbInfo}
    (hR : info.numRows = s.db.info.numRows) (hC : info.numColumns = s.db.info.numColumns) (email : String) :
    ∃ y, ∀ ω : s.Coins, ∃ st, lookupQueries (s.lib ω) s.servers.length (pointInfo info) (bytes email) =
      ok (shares s.db.info.numColumns y (s.servers.length - 1) (List.ofFn ω), st) := by
  obtain ⟨b, hb, -⟩ := hs.outsider
  obtain ⟨i, h⟩ := lookupQueries_fixed s.L hs.hash (info := pointInfo info)
    (by show info.numRows * info.numColumns % 2 ^ 32 ≠ 0; rw [hR, hC]; exact hs.cells)
    (List.length_pos_of_mem hb) hs.count (bytes email)
  have e : (pointInfo info).numColumns = s.db.info.numColumns := hC
  rw [e] at h
  exact ⟨_, fun ω => h (List.ofFn ω) (by rw [List.length_ofFn])⟩

theorem answers_all {s : Scene} {blocks : List (List Byte)} (hs : s.Sound blocks) (t : Tactic) (v : Mail) (y : Nat) (ω : s.Coins) :
    (¬ Fails s t v → ∃ as, (s.servers.zip (shares s.db.info.numColumns y (s.servers.length - 1) (List.ofFn ω))).mapM
      (fun m => orFatal ((s.net t v).answer m.1 m.2)) = ok as) ∧
    (Fails s t v → ∃ m, fatal ((s.servers.zip (shares s.db.info.numColumns y (s.servers.length - 1) (List.ofFn ω))).mapM
      (fun m => orFatal ((s.net t v).answer m.1 m.2))) = .exits m) := by
  obtain ⟨b, hb, -⟩ := hs.outsider
  have hpos := List.length_pos_of_mem hb
  have hlen := shares_length s.db.info.numColumns y (s.servers.length - 1) (List.ofFn ω)
  have hmem := shares_mem_length (C := s.db.info.numColumns) (y := y) (m := s.servers.length - 1) (rand := List.ofFn ω) (by
    rw [List.length_ofFn])
  generalize shares s.db.info.numColumns y (s.servers.length - 1) (List.ofFn ω) = qs at *
  constructor
  · intro h
    obtain ⟨r, hr, -⟩ := Point.mapM_ok (f := fun m : String × List Byte => orFatal ((s.net t v).answer m.1 m.2))
      (l := s.servers.zip qs) (by
      rintro ⟨a, q⟩ hm
      have ha := List.of_mem_zip hm
      show ∃ b, orFatal (if s.member a then t.replies v a else Point.answer s.L.dpf 0 s.db q) = ok b
      cases hma : s.member a with
      | true =>
        rw [if_pos rfl]
        by_contra hc
        refine h ⟨a, ha.1, hma, fun r hr => hc ⟨r, by rw [hr]; rfl⟩⟩
      | false =>
        rw [if_neg (by simp)]
        obtain ⟨x, hx, -⟩ := answerVec_spec hs.stores q (by rw [hmem q ha.2]; omega)
        exact ⟨x, by unfold Point.answer; rw [if_neg (by decide), hx]; rfl⟩)
    exact ⟨r, hr⟩
  · rintro ⟨a, ha, hma, hf⟩
    cases hc : (s.servers.zip qs).mapM (fun m => orFatal ((s.net t v).answer m.1 m.2)) with
    | err m => exact ⟨m, rfl⟩
    | crash m => exact ⟨m, rfl⟩
    | ok r =>
      exfalso
      obtain ⟨k, hk, rfl⟩ := List.getElem_of_mem ha
      have hk2 : k < qs.length := by omega
      have hz : (s.servers[k], qs[k]) ∈ s.servers.zip qs := by
        rw [List.mem_iff_getElem]
        exact ⟨k, by rw [List.length_zip]; omega, by rw [List.getElem_zip]⟩
      obtain ⟨x, -, hx⟩ := mapM_has hc _ hz
      rw [orFatal_iff] at hx
      have : (if s.member s.servers[k] then t.replies v s.servers[k] else Point.answer s.L.dpf 0 s.db qs[k]) = ok x := hx
      rw [if_pos hma] at this
      exact hf x this

/-- The messages, and what a lookup does when they have been sent. -/
theorem lookup_shape {s : Scene} {blocks : List (List Byte)} (hs : s.Sound blocks) {t : Tactic} {infos : List DbInfo}
    {info : DbInfo} (hg : gatherInfos (s.net t []) t.order s.servers = ok infos) (hd : getDBInfos infos = ok infos)
    (hi : idx infos 0 = ok info) (hR : info.numRows = s.db.info.numRows) (hC : info.numColumns = s.db.info.numColumns)
    (email : String) :
    ∃ y, ∀ ω : s.Coins,
      messages (s.lib ω) (s.net t []) t.order s.servers email =
        s.servers.zip (shares s.db.info.numColumns y (s.servers.length - 1) (List.ofFn ω)) ∧
      ∀ v, (Fails s t v → ∃ m, Web.getKey (s.lib ω) (s.net t v) t.order s.servers (pointInfo info) (bytes email) = .exits m) ∧
        (¬ Fails s t v → ∀ m, Web.getKey (s.lib ω) (s.net t v) t.order s.servers (pointInfo info) (bytes email) ≠ .exits m) := by
  obtain ⟨y, h⟩ := queries_fixed hs hR hC email
  obtain ⟨b, hb, -⟩ := hs.outsider
  have hpos := List.length_pos_of_mem hb
  refine ⟨y, fun ω => ?_⟩
  obtain ⟨st, hst⟩ := h ω
  have hsend := sends_eq s.servers (shares s.db.info.numColumns y (s.servers.length - 1) (List.ofFn ω)) (by
    rw [shares_length]; omega)
  refine ⟨?_, fun v => ?_⟩
  · unfold messages
    rw [hg, ok_bind, hd, ok_bind, hi, ok_bind, hst, ok_bind]
    dsimp only
    rw [hsend]
  · obtain ⟨h1, h2⟩ := answers_all hs t v y ω
    have e : Web.getKey (s.lib ω) (s.net t v) t.order s.servers (pointInfo info) (bytes email) =
        (Web.runQueries (s.net t v) t.order s.servers (shares s.db.info.numColumns y (s.servers.length - 1) (List.ofFn ω)) >>=
          fun answers => (calls (MerklePir.reconstructPIR (s.lib ω).H answers (pointInfo info) st) >>= fun result =>
            (calls (Padding.unPadBlock result) >>= fun result =>
              (calls (recoverKeyFromBlock (s.lib ω).lower (s.lib ω).readRing result (bytes email)) >>= fun e =>
                calls ((s.lib ω).armor e))))) := by
      unfold Web.getKey
      rw [hst]
      rfl
    rw [e]
    unfold Web.runQueries
    rw [hsend]
    constructor
    · intro hf
      obtain ⟨m, hm⟩ := h2 hf
      refine ⟨m, ?_⟩
      show ((fatal _ >>= fun answers => Fate.done (t.order.answers answers)) >>= _) = _
      rw [hm]
      rfl
    · intro hf
      obtain ⟨as, has⟩ := h1 hf
      have hl : Lasts (Web.runQueries (s.net t v) t.order s.servers
          (shares s.db.info.numColumns y (s.servers.length - 1) (List.ofFn ω))) := by
        unfold Web.runQueries
        rw [hsend]
        show Lasts (fatal _ >>= fun answers => Fate.done (t.order.answers answers))
        rw [has]
        exact lasts_done _
      unfold Web.runQueries at hl
      rw [hsend] at hl
      refine Lasts.bind hl fun a _ => ?_
      refine Lasts.bind (lasts_calls _) fun a _ => ?_
      refine Lasts.bind (lasts_calls _) fun a _ => ?_
      refine Lasts.bind (lasts_calls _) fun a _ => ?_
      exact lasts_calls _

/-- Averages over two lookups whose messages are distributed alike. -/
theorem avg_alike {Ω V : Type} [Fintype Ω] {f g : Ω → V} (h : ∀ v, Nat.card {ω // f ω = v} = Nat.card {ω // g ω = v})
    (D : V → ℚ) : avg (fun ω => D (f ω)) = avg (fun ω => D (g ω)) := by
  have e : ∀ v, {ω // f ω = v} ≃ {ω // g ω = v} := fun v => (Finite.card_eq.1 (h v)).some
  refine Eq.trans ?_ (avg_equiv (Equiv.ofFiberEquiv e) (fun ω => D (g ω)))
  refine avg_congr fun ω => ?_
  exact congrArg D (Equiv.ofFiberEquiv_map e ω).symm

end Verif.Presence
