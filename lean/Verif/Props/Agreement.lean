import Verif.Props.Arrival
import Verif.Props.Cmd
import Verif.Props.Tls
import Verif.Model.Interactive

/-! # C115: nothing is shown and nothing asked unless the servers agree on the dimensions; C116: strangers get nothing -/

namespace Verif.Client
open Res Verif.Cmd Verif.Pgp

/-- All servers tell their database's dimensions, and tell the same. -/
def Agree (net : Net) (servers : List String) : Prop :=
  ∀ a ∈ servers, ∀ b ∈ servers, ∃ i j, net.info a = ok i ∧ net.info b = ok j ∧
    i.numRows = j.numRows ∧ i.numColumns = j.numColumns ∧ i.blockSize = j.blockSize

theorem mapM_has {α β : Type _} {f : α → Res β} : ∀ {l : List α} {r : List β}, l.mapM f = ok r →
    ∀ x ∈ l, ∃ y ∈ r, f x = ok y := by
  intro l
  induction l with
  | nil => intro r _ x hx; simp at hx
  | cons a l ih =>
    intro r h x hx
    rw [List.mapM_cons, Res.bind_eq_ok] at h
    obtain ⟨b, hb, h⟩ := h
    rw [Res.bind_eq_ok] at h
    obtain ⟨t, ht, h⟩ := h
    cases h
    rcases List.mem_cons.mp hx with rfl | hx
    · exact ⟨b, by simp, hb⟩
    · obtain ⟨y, hy, hxy⟩ := ih ht x hx
      exact ⟨y, by simp [hy], hxy⟩

theorem orFatal_iff {α : Type _} {r : Res α} {a : α} : orFatal r = ok a ↔ r = ok a := by
  cases r <;> simp [orFatal]

theorem agree_of_equal {net : Net} {S : Schedule} (hS : Spec.Fair S) {servers : List String} {infos : List DbInfo}
    (h : gatherInfos net S servers = ok infos) (he : equalDBInfo infos = true) : Agree net servers := by
  unfold gatherInfos at h
  rw [Res.bind_eq_ok] at h
  obtain ⟨l, hl, h⟩ := h
  cases h
  intro a ha b hb
  obtain ⟨i, hi, hai⟩ := mapM_has hl a ha
  obtain ⟨j, hj, hbj⟩ := mapM_has hl b hb
  exact ⟨i, j, orFatal_iff.mp hai, orFatal_iff.mp hbj,
    (equal_iff _).mp he i ((hS.infos l).mem_iff.mpr hi) j ((hS.infos l).mem_iff.mpr hj)⟩

theorem getDBInfos_equal {l r : List DbInfo} (h : getDBInfos l = ok r) : equalDBInfo l = true := by
  unfold getDBInfos at h
  split at h
  · cases h
  · rename_i he
    simpa using he

theorem connect_all {dial : String → Res Unit} {l conns : List String} (h : connect dial l = ok conns) :
    ∀ a ∈ l, a ∈ conns := by
  have key : ∀ (l acc conns : List String), l.foldlM (fun conns s => do
      let _ ← dial s
      ok (if s ∈ conns then conns else conns ++ [s])) acc = ok conns → ∀ a, a ∈ acc ∨ a ∈ l → a ∈ conns := by
    intro l
    induction l with
    | nil => intro acc conns h a ha; simp only [List.foldlM_nil] at h; cases h; simpa using ha
    | cons x l ih =>
      intro acc conns h a ha
      rw [List.foldlM_cons, Res.bind_eq_ok] at h
      obtain ⟨b, hb, h⟩ := h
      rw [Res.bind_eq_ok] at hb
      obtain ⟨-, -, hb⟩ := hb
      cases hb
      refine ih _ _ h a ?_
      rcases ha with ha | ha
      · left; split <;> simp [ha]
      · rcases List.mem_cons.mp ha with rfl | ha
        · left; split <;> simp_all
        · exact Or.inr ha
  exact fun a ha => key l [] conns h a (Or.inr ha)

/-- C115: whatever the servers say and answer, and in whatever order: the interactive client shows a key or that there is
none, the web front end sends a page with a key, and either shows a number, only if all servers report the same numbers of
rows and columns and the same block size. -/
theorem C115_shown (L : Lib) (W : Predicate.World) (gob : Predicate.Msg → List Byte) (mk : Int → Query.Time) (net : Net)
    (S : Schedule) (hS : Spec.Fair S) (servers : List String) :
    (∀ email x, downloadKey L net S servers email = ok x → Agree net servers) ∧
    (∀ req b, handleRetrieve L net S servers req = ok (.body b) → Agree net servers) ∧
    (∀ q n, executeStatsQuery W gob net S servers q = ok n → Agree net servers) ∧
    (∀ c t, showStats W gob mk net S servers c = ok t → Agree net servers) := by
  have hstats : ∀ q n, executeStatsQuery W gob net S servers q = ok n → Agree net servers := by
    intro q n h
    unfold executeStatsQuery at h
    rw [Res.bind_eq_ok] at h
    obtain ⟨infos, h1, h⟩ := h
    rw [Res.bind_eq_ok] at h
    obtain ⟨infos', h2, -⟩ := h
    exact agree_of_equal hS h1 (getDBInfos_equal h2)
  refine ⟨?_, ?_, hstats, ?_⟩
  · intro email x h
    have key : (∃ k, actorLookup L net S servers (bytes email) = ok k) ∨
        ∃ m, actorLookup L net S servers (bytes email) = err m ∧ contains m keyNotFoundErr = true := by
      unfold downloadKey at h
      cases ha : actorLookup L net S servers (bytes email) with
      | ok k => exact Or.inl ⟨k, rfl⟩
      | crash m => rw [ha] at h; cases h
      | err m =>
        rw [ha] at h
        dsimp only at h
        by_cases hc : contains m keyNotFoundErr = true
        · exact Or.inr ⟨m, rfl, hc⟩
        · rw [if_neg hc] at h; cases h
    unfold actorLookup at key
    cases hg : gatherInfos net S servers with
    | crash m => rw [hg] at key; rcases key with ⟨k, h⟩ | ⟨m, h, -⟩ <;> cases h
    | err m =>
      unfold gatherInfos at hg
      cases hm : servers.mapM (fun a => orFatal (net.info a)) with
      | ok l => rw [hm] at hg; cases hg
      | crash m => rw [hm] at hg; cases hg
      | err m =>
        exfalso
        have : ∀ (l : List String) m, l.mapM (fun a => orFatal (net.info a)) ≠ err m := by
          intro l
          induction l with
          | nil => intro m h; cases h
          | cons x l ih =>
            intro m h
            rw [List.mapM_cons] at h
            cases hx : net.info x with
            | err m => rw [hx] at h; cases h
            | crash m => rw [hx] at h; cases h
            | ok i =>
              rw [hx, show orFatal (ok i) = ok i from rfl, ok_bind] at h
              cases hl : l.mapM (fun a => orFatal (net.info a)) with
              | err m => exact ih m hl
              | crash m => rw [hl] at h; cases h
              | ok r => rw [hl] at h; cases h
        exact this servers m hm
    | ok infos =>
      cases he : equalDBInfo infos with
      | true => exact agree_of_equal hS hg he
      | false =>
        exfalso
        rw [hg, ok_bind] at key
        unfold getDBInfos at key
        rw [if_pos he] at key
        rcases key with ⟨k, h⟩ | ⟨m, h, hc⟩
        · cases h
        · cases h
          exact absurd hc (by decide +kernel)
  · intro req b h
    unfold handleRetrieve at h
    cases hp : req.parse with
    | crash m => rw [hp] at h; cases h
    | err m => rw [hp] at h; cases h
    | ok u =>
      rw [hp] at h
      dsimp only at h
      split at h
      · cases h
      rw [Res.bind_eq_ok] at h
      obtain ⟨infos, h1, h⟩ := h
      cases h2 : getDBInfos infos with
      | crash m => rw [h2] at h; cases h
      | err m => rw [h2] at h; cases h
      | ok infos' => exact agree_of_equal hS h1 (getDBInfos_equal h2)
  · intro c t h
    unfold showStats getStats at h
    rw [Res.bind_eq_ok] at h
    obtain ⟨n, hn, -⟩ := h
    rw [Res.bind_eq_ok] at hn
    obtain ⟨q, -, hn⟩ := hn
    exact hstats q n hn

/-- C115 for the command-line client. -/
theorem C115_command_line (L : Lib) (W : Predicate.World) (gob : Predicate.Msg → List Byte) (mk : Int → Query.Time)
    (net : Net) (S : Schedule) (hS : Spec.Fair S) (addresses : List String) (f : Flags) (typed : String) (out : Output)
    (h : main L W gob mk net S addresses f typed = ok out) : Agree net addresses := by
  unfold main at h
  rw [Res.bind_eq_ok] at h
  obtain ⟨conns, hc, h⟩ := h
  rw [orFatal_iff] at hc h
  unfold exec at h
  rw [Res.bind_eq_ok] at h
  obtain ⟨infos, h1, h⟩ := h
  rw [Res.bind_eq_ok] at h
  obtain ⟨info, h2, -⟩ := h
  have he : equalDBInfo infos = true := by
    unfold retrieveDBInfo at h2
    split at h2
    · cases h2
    · rename_i he
      simpa using he
  have := agree_of_equal hS h1 he
  exact fun a ha b hb => this a (connect_all hc a ha) b (connect_all hc b hb)

/-- What is left when the servers do not agree. -/
theorem gather_disagree {net : Net} {S : Schedule} (hS : Spec.Fair S) {servers : List String} (hd : ¬ Agree net servers) :
    ∀ infos, gatherInfos net S servers = ok infos → equalDBInfo infos = false := by
  intro infos h
  cases he : equalDBInfo infos with
  | false => rfl
  | true => exact absurd (agree_of_equal hS h he) hd

/-- C115: servers that do not agree are not asked: what the programs do is the same whatever the servers would answer to
queries. -/
theorem C115_not_asked (L : Lib) (W : Predicate.World) (gob : Predicate.Msg → List Byte) (mk : Int → Query.Time)
    (net : Net) (S : Schedule) (hS : Spec.Fair S) (servers : List String) (hd : ¬ Agree net servers)
    (other : String → List Byte → Res (List Byte)) :
    (∀ email, downloadKey L { net with answer := other } S servers email = downloadKey L net S servers email) ∧
    (∀ req, handleRetrieve L { net with answer := other } S servers req = handleRetrieve L net S servers req) ∧
    (∀ c, showStats W gob mk { net with answer := other } S servers c = showStats W gob mk net S servers c) ∧
    (∀ f typed, main L W gob mk { net with answer := other } S servers f typed = main L W gob mk net S servers f typed) := by
  have hg : ∀ servers, gatherInfos { net with answer := other } S servers = gatherInfos net S servers := fun _ => rfl
  have hno := gather_disagree hS hd
  have hget : ∀ infos, gatherInfos net S servers = ok infos → getDBInfos infos = err "db not equal" := by
    intro infos h
    unfold getDBInfos
    rw [if_pos (hno infos h)]
  refine ⟨fun email => ?_, fun req => ?_, fun c => ?_, fun f typed => ?_⟩
  · unfold downloadKey actorLookup
    rw [hg]
    cases h : gatherInfos net S servers with
    | crash m => rfl
    | err m => rfl
    | ok infos => rw [ok_bind, ok_bind, hget infos h]; rfl
  · unfold handleRetrieve
    rw [hg]
    cases h : gatherInfos net S servers with
    | crash m => rfl
    | err m => rfl
    | ok infos => simp only [ok_bind, hget infos h]
  · unfold showStats getStats executeStatsQuery
    rw [hg]
    cases h : gatherInfos net S servers with
    | crash m => rfl
    | err m => rfl
    | ok infos => simp only [ok_bind, hget infos h]; rfl
  · unfold main
    dsimp only
    cases hc : connect net.dial servers with
    | crash m => rfl
    | err m => rfl
    | ok conns =>
      simp only [orFatal, ok_bind]
      unfold exec
      rw [hg]
      have hd' : ¬ Agree net conns := fun h => hd fun a ha b hb => h a (connect_all hc a ha) b (connect_all hc b hb)
      cases h : gatherInfos net S conns with
      | crash m => rfl
      | err m => rfl
      | ok infos =>
        have : retrieveDBInfo infos = crash "got different database info from servers" := by
          unfold retrieveDBInfo
          rw [if_pos (gather_disagree hS hd' infos h)]
        rw [ok_bind, ok_bind, this]
        rfl

/-- Two servers with different numbers of columns. -/
example : ¬ Agree ⟨fun _ => ok (), fun a => ok ⟨1, if a = "a:1" then 1 else 2, 2, "classical", [], 0⟩, fun _ _ => ok []⟩
    ["a:1", "b:1"] := by
  intro h
  obtain ⟨i, j, hi, hj, -, h2, -⟩ := h "a:1" (by simp) "b:1" (by simp)
  dsimp only at hi hj
  rw [if_neg (by decide)] at hj
  rw [if_pos rfl] at hi
  cases hi
  cases hj
  exact absurd h2 (by decide)

end Verif.Client

namespace Verif.Tls
open Res Verif.Tls.Spec Verif.Client Verif.Client.Spec

theorem dial_cases (world : String → Option Peer) (now : Int) (a : String) :
    dial world now a = ok () ∨ dial world now a = err "did not connect" := by
  unfold dial
  split
  · exact Or.inr rfl
  · split
    · exact Or.inl rfl
    · exact Or.inr rfl

theorem connect_fails {d : String → Res Unit} (hd : ∀ a, d a = ok () ∨ d a = err "did not connect") {l : List String}
    (h : ∃ a ∈ l, d a ≠ ok ()) : connect d l = err "did not connect" ∧ connectActor d l = err "did not connect" := by
  unfold connect connectActor
  constructor
  · have key : ∀ (l acc : List String), (∃ a ∈ l, d a ≠ ok ()) → l.foldlM (fun conns s => do
        let _ ← d s
        ok (if s ∈ conns then conns else conns ++ [s])) acc = err "did not connect" := by
      intro l
      induction l with
      | nil => intro acc ⟨a, ha, _⟩; simp at ha
      | cons x l ih =>
        intro acc ⟨a, ha, hda⟩
        rw [List.foldlM_cons]
        rcases hd x with hx | hx
        · rw [hx, ok_bind, ok_bind]
          apply ih
          rcases List.mem_cons.mp ha with rfl | ha
          · exact absurd hx hda
          · exact ⟨a, ha, hda⟩
        · rw [hx]; rfl
    exact key l [] h
  · induction l with
    | nil => obtain ⟨a, ha, -⟩ := h; simp at ha
    | cons x l ih =>
      rw [List.mapM_cons]
      rcases hd x with hx | hx
      · rw [hx]
        obtain ⟨a, ha, hda⟩ := h
        have : ∃ a ∈ l, d a ≠ ok () := by
          rcases List.mem_cons.mp ha with rfl | ha
          · exact absurd hx hda
          · exact ⟨a, ha, hda⟩
        simp only [ok_bind, ih this]
        rfl
      · rw [hx]; rfl

/-- C116: if at one of the addresses somebody answers who knows none of the five secret keys, whatever certificates it
shows, no client sends a single query to anybody, and none shows anything: the command-line client ends before it asks for
the parameters of the databases, whatever is behind the connections; the other two have no actor. -/
theorem C116_stranger (world : String → Option Peer) (now : Int) (addresses : List String) (a : String)
    (ha : a ∈ addresses) (p : Peer) (hp : world a = some p) (h : ∀ i, i < 5 → i ∉ p.knows) (beyond : Net) :
    (∀ L W gob mk S f typed, main L W gob mk (secured world now beyond) S addresses f typed = crash "did not connect") ∧
    (∀ L S info id, commandLineTraffic L (secured world now beyond) S addresses info id = err "did not connect") ∧
    (∀ L info id, actorTraffic L (secured world now beyond) addresses info id = err "did not connect") := by
  obtain ⟨h1, h2⟩ := connect_fails (dial_cases world now) (l := addresses) ⟨a, ha, C80_outsider world now a p hp h⟩
  refine ⟨fun L W gob mk S f typed => ?_, fun L S info id => ?_, fun L info id => ?_⟩
  · unfold main secured
    dsimp only
    rw [h1]
    rfl
  · unfold commandLineTraffic secured
    dsimp only
    rw [h1]
    rfl
  · unfold actorTraffic secured
    dsimp only
    rw [h2]
    rfl

/-- C116: the same if nobody answers at an address. -/
theorem C116_nobody (world : String → Option Peer) (now : Int) (addresses : List String) (a : String)
    (ha : a ∈ addresses) (hp : world a = none) (beyond : Net) :
    (∀ L W gob mk S f typed, main L W gob mk (secured world now beyond) S addresses f typed = crash "did not connect") ∧
    (∀ L S info id, commandLineTraffic L (secured world now beyond) S addresses info id = err "did not connect") ∧
    (∀ L info id, actorTraffic L (secured world now beyond) addresses info id = err "did not connect") := by
  have hd : dial world now a ≠ ok () := by unfold dial; rw [hp]; simp
  obtain ⟨h1, h2⟩ := connect_fails (dial_cases world now) (l := addresses) ⟨a, ha, hd⟩
  refine ⟨fun L W gob mk S f typed => ?_, fun L S info id => ?_, fun L info id => ?_⟩
  · unfold main secured
    dsimp only
    rw [h1]
    rfl
  · unfold commandLineTraffic secured
    dsimp only
    rw [h1]
    rfl
  · unfold actorTraffic secured
    dsimp only
    rw [h2]
    rfl

/-- C116: every message that leaves a client goes to an address that is answered by somebody who knows the secret key of a
certificate that is one of the five and valid. -/
theorem C116_receivers (world : String → Option Peer) (now : Int) (addresses : List String) (beyond : Net) (L : Lib)
    (S : Schedule) (hS : Fair S) (info : Database.Info) (id : Pgp.Str) (ms : List (String × List Byte))
    (h : commandLineTraffic L (secured world now beyond) S addresses info id = ok ms ∨
      actorTraffic L (secured world now beyond) addresses info id = ok ms) :
    ∀ m ∈ ms, m.1 ∈ addresses ∧ ∃ p, world m.1 = some p ∧
      ∃ i, ∃ hi : i < 5, p.leaf = serverPublicKeys[i]'hi ∧ Valid i now ∧ i ∈ p.knows := by
  have hall : (∀ a ∈ addresses, dial world now a = ok ()) := by
    by_contra hn
    push Not at hn
    obtain ⟨h1, h2⟩ := connect_fails (dial_cases world now) (l := addresses) hn
    unfold commandLineTraffic actorTraffic secured at h
    dsimp only at h
    rw [h1, h2] at h
    rcases h with h | h <;> cases h
  have hsent : ∀ (servers : List String) (qs : List (List Byte)) r, sends servers qs = ok r → ∀ m ∈ r, m.1 ∈ servers := by
    intro servers qs r hr m hm
    unfold sends at hr
    obtain ⟨x, hx, hxm⟩ := mapM_mem hr m hm
    rw [Res.bind_eq_ok] at hxm
    obtain ⟨q, -, hxm⟩ := hxm
    cases hxm
    exact (List.mem_zipIdx' hx).2 ▸ List.getElem_mem _
  have hmem : ∀ m ∈ ms, m.1 ∈ addresses := by
    intro m hm
    unfold commandLineTraffic actorTraffic secured at h
    dsimp only at h
    rcases h with h | h
    · rw [Res.bind_eq_ok] at h
      obtain ⟨conns, hc, h⟩ := h
      rw [Res.bind_eq_ok] at h
      obtain ⟨⟨qs, st⟩, -, h⟩ := h
      exact connect_mem hc _ ((hS.conns conns).mem_iff.mp (hsent _ _ _ h m hm))
    · rw [Res.bind_eq_ok] at h
      obtain ⟨servers, hc, h⟩ := h
      rw [Res.bind_eq_ok] at h
      obtain ⟨⟨qs, st⟩, -, h⟩ := h
      rw [connectActor_spec hall] at hc
      cases hc
      exact hsent _ _ _ h m hm
  exact fun m hm => ⟨hmem m hm, (dial_iff world now m.1).mp (hall _ (hmem m hm))⟩

/-- Somebody who shows the certificate of server 1 without knowing its key. -/
example : ∀ i, i < 5 → i ∉ (⟨serverPublicKeys[1], [], [7]⟩ : Peer).knows := by decide

end Verif.Tls
