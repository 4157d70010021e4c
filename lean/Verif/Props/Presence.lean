import Verif.Lemmas.Deploy
import Verif.Lemmas.Presence
import Verif.Props.Client
import Verif.Props.Interactive

/-! # C141: what servers notice of lookups by the interactive and the web client, besides their messages -/

namespace Verif.Presence
open Res Verif.Cmd Verif.Client Verif.Client.Spec Verif.Web Verif.Interactive Verif.Pgp Verif.Pgp.Spec Verif.Point
  Verif.Point.Spec Verif.Privacy Verif.Reaction Verif.History

/-- If the client is not stopped by what the servers say about the database, every collection of messages to the members arises
from the same number of random strings for both e-mails. -/
theorem mail_alike {s : Scene} {blocks : List (List Byte)} (hs : s.Sound blocks) {t : Tactic} {infos : List DbInfo}
    {info : DbInfo} (hg : gatherInfos (s.net t []) t.order s.servers = ok infos) (hd : getDBInfos infos = ok infos)
    (hi : idx infos 0 = ok info) (hR : info.numRows = s.db.info.numRows) (hC : info.numColumns = s.db.info.numColumns)
    (email email' : String) (v : Mail) :
    Nat.card {ω // s.mail email t ω = v} = Nat.card {ω // s.mail email' t ω = v} := by
  obtain ⟨b, hb, hmb⟩ := hs.outsider
  have hal := alike_over s.L hs.hash (info := pointInfo info)
    (by show info.numRows * info.numColumns % 2 ^ 32 ≠ 0; rw [hR, hC]; exact hs.cells) hs.count hb hmb
    (bytes email) (bytes email') v
  have key : ∀ email : String, Nat.card {ω // s.mail email t ω = v} =
      Nat.card {r : List Byte // r.length = (s.servers.length - 1) * ((pointInfo info).numColumns / 8 + 1) ∧ Seen (do
        let (qs, _) ← lookupQueries (withRandom s.L r) s.servers.length (pointInfo info) (bytes email)
        sends s.servers qs) s.member v} := by
    intro email
    obtain ⟨y, hy⟩ := queries_fixed hs hR hC email
    have hlen : (s.servers.length - 1) * ((pointInfo info).numColumns / 8 + 1) =
        (s.servers.length - 1) * (s.db.info.numColumns / 8 + 1) := by
      rw [show (pointInfo info).numColumns = s.db.info.numColumns from hC]
    have hpos := List.length_pos_of_mem hb
    have hm : ∀ ω : s.Coins, s.mail email t ω = v ↔ Seen (do
        let (qs, _) ← lookupQueries (withRandom s.L (List.ofFn ω)) s.servers.length (pointInfo info) (bytes email)
        sends s.servers qs) s.member v := by
      intro ω
      obtain ⟨st, hst⟩ := hy ω
      have hst' : lookupQueries (withRandom s.L (List.ofFn ω)) s.servers.length (pointInfo info) (bytes email) = _ := hst
      unfold Scene.mail messages Seen
      rw [hg, ok_bind, hd, ok_bind, hi, ok_bind, hst, hst', ok_bind]
      dsimp only
      rw [sends_eq _ _ (by rw [shares_length]; omega)]
      simp
    refine Nat.card_congr ⟨fun ω => ⟨List.ofFn ω.1, by rw [List.length_ofFn, hlen], (hm ω.1).1 ω.2⟩,
      fun r => ⟨fun k => r.1[k.1]'(by rw [r.2.1, hlen]; exact k.2), ?_⟩, ?_, ?_⟩
    · rw [hm]
      have : List.ofFn (fun k : Fin ((s.servers.length - 1) * (s.db.info.numColumns / 8 + 1)) =>
          r.1[k.1]'(by rw [r.2.1, hlen]; exact k.2)) = r.1 := by
        apply List.ext_getElem
        · rw [List.length_ofFn, r.2.1, hlen]
        · intro k h1 h2
          rw [List.getElem_ofFn]
      rw [this]
      exact r.2.2
    · rintro ⟨ω, hω⟩
      apply Subtype.ext
      funext k
      show (List.ofFn ω)[k.1]'_ = ω k
      rw [List.getElem_ofFn]
    · rintro ⟨r, hr⟩
      apply Subtype.ext
      apply List.ext_getElem
      · rw [List.length_ofFn, hr.1, hlen]
      · intro k h1 h2
        show (List.ofFn _)[k]'_ = r[k]
        rw [List.getElem_ofFn]
  rw [key, key]
  exact hal

open Classical in
/-- What a coalition notices of a lookup on the web page, given its messages. -/
theorem webSees_eq {s : Scene} {blocks : List (List Byte)} (hs : s.Sound blocks) {t : Tactic} (hf : Fair t.order) :
    (∃ w, ∀ email, email ≠ "" → ∀ ω, webSees s email t ω = w) ∨
    (∃ infos info, gatherInfos (s.net t []) t.order s.servers = ok infos ∧ getDBInfos infos = ok infos ∧
      idx infos 0 = ok info ∧ info.numRows = s.db.info.numRows ∧ info.numColumns = s.db.info.numColumns ∧
      ∀ email, email ≠ "" → ∀ ω, webSees s email t ω = (s.mail email t ω, decide (¬ Fails s t (s.mail email t ω)))) := by
  rcases infos_cases hs hf with ⟨m, hm⟩ | ⟨infos, hg, m, hm⟩ | ⟨infos, info, hg, hd, hi, hR, hC, -⟩
  · left
    refine ⟨([], false), fun email he ω => ?_⟩
    have h1 : s.mail email t ω = [] := by
      unfold Scene.mail messages
      rw [hm]
      rfl
    unfold webSees
    rw [h1]
    unfold Web.retrieve
    show (_, stays (if email = "" then _ else _)) = _
    rw [if_neg he, hm]
    rfl
  · left
    refine ⟨([], true), fun email he ω => ?_⟩
    have h1 : s.mail email t ω = [] := by
      unfold Scene.mail messages
      rw [hg, ok_bind, hm]
      rfl
    unfold webSees
    rw [h1]
    unfold Web.retrieve
    show (_, stays (if email = "" then _ else _)) = _
    rw [if_neg he, hg]
    rw [fatal_ok rfl, bind_done]
    simp only [hm, calls]
    rfl
  · right
    refine ⟨infos, info, hg, hd, hi, hR, hC, fun email he ω => ?_⟩
    obtain ⟨y, hy⟩ := lookup_shape hs hg hd hi hR hC email
    obtain ⟨-, h⟩ := hy ω
    unfold webSees
    generalize s.mail email t ω = v
    obtain ⟨h1, h2⟩ := h v
    refine congrArg (Prod.mk v) ?_
    unfold Web.retrieve
    show stays (if email = "" then _ else _) = _
    rw [if_neg he, gather_same, hg]
    rw [fatal_ok rfl, bind_done]
    simp only [hd, hi, calls, bind_done]
    rw [show (asking email).value "email" = email from rfl]
    by_cases hF : Fails s t v
    · obtain ⟨m, hm⟩ := h1 hF
      rw [hm]
      simp [hF, stays]
    · have h2 := h2 hF
      simp only [hF, not_false_eq_true, decide_true]
      cases hk : Web.getKey (s.lib ω) (s.net t v) t.order s.servers (pointInfo info) (bytes email) with
      | exits m => exact absurd hk (h2 m)
      | done k => rfl
      | dropped m => rfl
      | failed m =>
        dsimp only
        split <;> rfl

theorem web_one {s : Scene} {blocks : List (List Byte)} (hs : s.Sound blocks) {c : History.Choice String Tactic} (hc : Proper c)
    (D : Mail × Bool → ℚ) : advantage (webSees s c.left c.answer) (webSees s c.right c.answer) D = 0 := by
  unfold advantage
  rw [abs_eq_zero, sub_eq_zero]
  obtain ⟨h1, h2, hf⟩ := hc
  rcases webSees_eq hs hf with ⟨w, hw⟩ | ⟨infos, info, hg, hd, hi, hR, hC, hw⟩
  · refine avg_congr fun ω => ?_
    rw [hw _ h1, hw _ h2]
  · classical
    have := avg_alike (fun v => mail_alike hs hg hd hi hR hC c.left c.right v)
      (fun v => D (v, decide (¬ Fails s c.answer v)))
    refine Eq.trans (avg_congr fun ω => ?_) (this.trans (avg_congr fun ω => ?_))
    · rw [hw _ h1]
    · rw [hw _ h2]

/-- C141 as claimed: whatever the members of a coalition that misses one server say, answer and remember, and whatever they have
looked up, their messages and the presence of the program, whether the interactive one or the web front end, do not tell them which
of two e-mails was looked up in each lookup. -/
def C141_Statement : Prop :=
  ∀ (s : Scene) (blocks : List (List Byte)), s.Sound blocks → ∀ S : Server String Tactic (Mail × Bool), IsTest S.decide →
    (∀ past, Proper (S.choose past)) → ∀ n,
    telling (webSees s) S n = 0 ∧ ∀ (d : Desk) (W : Predicate.World), telling (interactiveSees d W s) S n = 0

/-- C141 for the web front end, with any number of lookups. Missing from the full claim: the interactive program, for which it is
false, see `C141_refuted`; and two servers, which use the distributed point function (C61). -/
theorem C141_web_partial (s : Scene) (blocks : List (List Byte)) (hs : s.Sound blocks) (S : Server String Tactic (Mail × Bool))
    (hD : IsTest S.decide) (hc : ∀ past, Proper (S.choose past)) (n : Nat) : telling (webSees s) S n = 0 := by
  have h := telling_le (cost := fun _ _ => 0) (see := webSees s) hD Proper hc (fun c D hc _ => (web_one hs hc D).le) n
  have h2 := total_le (webSees s) S (fun _ _ => 0) 0 le_rfl (fun _ _ => le_rfl) n []
  have h0 : 0 ≤ telling (webSees s) S n := abs_nonneg _
  simp only [mul_zero] at h2
  exact le_antisymm (h.trans h2) h0

/-! ### The interactive program -/

theorem goes_on (d : Desk) (w : Weather) (email : String) :
    (Interactive.session d [(.download (some email), w)]).2 = .asking ↔
      ∃ x, Client.downloadKey d.L w.net w.S d.point email = ok x := by
  have h3 := (C83_download d w email).2.2
  constructor
  · intro h
    by_contra hc
    push Not at hc
    obtain ⟨-, hne⟩ := h3.1 hc
    rw [Interactive.session] at h
    generalize download d w (some email) = r at *
    obtain ⟨out, f⟩ := r
    cases f with
    | done u => exact hne rfl
    | failed m => cases h
    | dropped m => cases h
    | exits m => cases h
  · rintro ⟨x, hx⟩
    have : ∃ out, download d w (some email) = (out, .done ()) := by
      cases x with
      | result k => exact ⟨_, ((C83_download d w email).1 k).1 hx⟩
      | noKey => exact ⟨_, (C83_download d w email).2.1.1 hx⟩
    obtain ⟨out, ho⟩ := this
    rw [Interactive.session, ho]
    rfl

theorem sees_goes_on (d : Desk) (W : Predicate.World) (s : Scene) (email : String) (t : Tactic) (ω : s.Coins) :
    (interactiveSees d W s email t ω).2 = true ↔
      ∃ x, Client.downloadKey (s.lib ω) (s.net t (s.mail email t ω)) t.order s.servers email = ok x := by
  unfold interactiveSees
  rw [decide_eq_true_iff, goes_on]

theorem find_address {l : Mail} (hn : (l.map Prod.fst).Nodup) {a : String} {q : List Byte} (h : (a, q) ∈ l) :
    l.find? (fun m => m.1 = a) = some (a, q) := by
  induction l with
  | nil => simp at h
  | cons m l ih =>
    rw [List.map_cons, List.nodup_cons] at hn
    rcases List.mem_cons.1 h with rfl | h
    · simp
    · have hne : m.1 ≠ a := by
        rintro rfl
        exact hn.1 (List.mem_map.2 ⟨_, h, rfl⟩)
      rw [List.find?_cons_of_neg (by simpa using hne)]
      exact ih hn.2 h

/-- The random source delivers `r`, and zeros after that. -/
def delivering (r : List Byte) (n : Nat) : Res (List Byte) := ok ((r ++ List.replicate n 0).take n)

theorem delivering_delivers (r : List Byte) : Delivers (delivering r) := fun n => ⟨_, rfl, by simp⟩

theorem delivering_eq (r : List Byte) : delivering r r.length = ok r := by
  unfold delivering
  rw [List.take_left]

theorem lookupQueries_read (L : Lib) (r : List Byte) {n : Nat} {info : Database.Info} (id : Str)
    (hr : r.length = (n - 1) * (info.numColumns / 8 + 1)) :
    lookupQueries (withRandom L r) n info id = lookupQueries { L with read := delivering r } n info id := by
  have hsh : ∀ iy, secretShare (fun _ => ok r) info.numColumns iy n = secretShare (delivering r) info.numColumns iy n := by
    intro iy
    unfold secretShare
    dsimp only
    rw [Int.toNat_natCast, ← hr, delivering_eq]
  unfold lookupQueries
  refine congrArg _ (funext fun k => ?_)
  dsimp only
  unfold queryBytes
  refine congrArg _ (funext fun i => ?_)
  unfold Point.query
  dsimp only [withRandom]
  simp only [hsh]

/-- Honest members make the programs do what they do with honest servers. -/
theorem honest_lookup {s : Scene} {blocks : List (List Byte)} (hs : s.Sound blocks) (hn : s.servers.Nodup) {order : Schedule}
    (hf : Fair order) (email : String) (ω : s.Coins) :
    actorLookup (s.lib ω) (s.net (s.honest order) (s.mail email (s.honest order) ω)) order s.servers (bytes email) =
      actorLookup { s.L with read := delivering (List.ofFn ω) } (honestNet s.L.dpf s.db) order s.servers (bytes email) := by
  have hgi : ∀ v, gatherInfos (s.net (s.honest order) v) order s.servers =
      gatherInfos (honestNet s.L.dpf s.db) order s.servers := by
    intro v
    unfold gatherInfos
    have : (s.net (s.honest order) v).info = (honestNet s.L.dpf s.db).info := by
      funext a
      show (if s.member a then _ else _) = _
      split <;> rfl
    rw [this]
  rcases infos_cases hs (t := s.honest order) hf with ⟨m, hm⟩ | ⟨infos, hg, m, hm⟩ | ⟨infos, info, hg, hd, hi, hR, hC, -⟩
  · have hm' : gatherInfos (honestNet s.L.dpf s.db) order s.servers = crash m := (hgi []).symm.trans hm
    unfold actorLookup
    rw [hgi, hm', crash_bind, crash_bind]
  · have hg' : gatherInfos (honestNet s.L.dpf s.db) order s.servers = ok infos := (hgi []).symm.trans hg
    unfold actorLookup
    rw [hgi, hg', ok_bind, ok_bind, hm, err_bind, err_bind]
  · have hg' : gatherInfos (honestNet s.L.dpf s.db) order s.servers = ok infos := (hgi []).symm.trans hg
    obtain ⟨y, hy⟩ := queries_fixed hs hR hC email
    obtain ⟨st, hst⟩ := hy ω
    obtain ⟨b, hb, -⟩ := hs.outsider
    have hpos := List.length_pos_of_mem hb
    have hmail : s.mail email (s.honest order) ω = (s.servers.zip
        (shares s.db.info.numColumns y (s.servers.length - 1) (List.ofFn ω))).filter (fun m => s.member m.1) := by
      unfold Scene.mail messages
      rw [show (s.honest order).order = order from rfl, hgi, hg', ok_bind, hd, ok_bind, hi, ok_bind, hst, ok_bind]
      dsimp only
      rw [sends_eq _ _ (by rw [shares_length]; omega)]
    unfold actorLookup
    rw [hgi, hg', ok_bind, ok_bind, hd, ok_bind, ok_bind, hi, ok_bind, ok_bind]
    have hq : Client.lookup (s.lib ω) s.servers.length (runQueriesActor (honestNet s.L.dpf s.db) order s.servers) (pointInfo info)
        (bytes email) = Client.lookup { s.L with read := delivering (List.ofFn ω) } s.servers.length
          (runQueriesActor (honestNet s.L.dpf s.db) order s.servers) (pointInfo info) (bytes email) := by
      unfold Client.lookup
      have h := lookupQueries_read s.L (List.ofFn ω) (n := s.servers.length) (info := pointInfo info) (bytes email) (by
        rw [List.length_ofFn, show (pointInfo info).numColumns = s.db.info.numColumns from hC])
      have h' : lookupQueries (s.lib ω) s.servers.length (pointInfo info) (bytes email) = _ := h
      rw [h']
      rfl
    rw [← hq]
    apply lookup_congr
    intro ms hms m hm
    rw [hst, ok_bind] at hms
    dsimp only at hms
    rw [sends_eq _ _ (by rw [shares_length]; omega)] at hms
    cases hms
    obtain ⟨a, q⟩ := m
    show (if s.member a then _ else _) = Point.answer s.L.dpf 0 s.db q
    cases hma : s.member a with
    | false => rfl
    | true =>
      rw [if_pos rfl]
      show (match (s.mail email (s.honest order) ω).find? (fun m => m.1 = a) with
        | some m => Point.answer s.L.dpf 0 s.db m.2
        | none => err "no message") = _
      rw [hmail, find_address ?_ (a := a) (q := q) (List.mem_filter.2 ⟨hm, hma⟩)]
      have hsub : (((s.servers.zip (shares s.db.info.numColumns y (s.servers.length - 1) (List.ofFn ω))).filter
          (fun m => s.member m.1)).map Prod.fst).Sublist s.servers := by
        refine ((List.filter_sublist).map Prod.fst).trans ?_
        rw [List.map_fst_zip]
        rw [shares_length]
        omega
      exact hsub.nodup hn

/-- The database of a scene, made from loaded keys (C14). -/
structure Made (s : Scene) (loaded : List Key) (parse : Key → Entity) : Prop where
  made : ∃ sort order rebalanced, SortsById sort ∧ OrdersFair order ∧
    generateRealKeyBytes s.L.hash sort order loaded rebalanced = ok s.db
  enough : 10 ≤ loaded.length
  few : loaded.length ≤ 2 ^ 32
  differ : (loaded.map (·.id)).Nodup
  parses : Parses s.L.readRing parse loaded
  named : NamedBy s.L.lower parse loaded
  armored : ∀ k ∈ loaded, ∃ a, s.L.armor (parse k) = ok a

/-- Some loaded key has the position of the e-mail. -/
def Shared (s : Scene) (loaded : List Key) (email : String) : Prop :=
  ∃ k ∈ loaded, position s.L.hash (s.db.info.numRows * s.db.info.numColumns) k.id =
    position s.L.hash (s.db.info.numRows * s.db.info.numColumns) (bytes email)

/-- C141: even if all servers do as they should, and only watch, the interactive program is still there after a lookup exactly if
some stored key has the position of the e-mail. Every server learns this much about the e-mail. -/
theorem C141_interactive_watched (s : Scene) (blocks : List (List Byte)) (hs : s.Sound blocks) (hn : s.servers.Nodup)
    (loaded : List Key) (parse : Key → Entity) (hm : Made s loaded parse) (order : Schedule) (hf : Fair order) (d : Desk)
    (W : Predicate.World) (email : String) (he : email ≠ "") (ω : s.Coins) :
    (interactiveSees d W s email (s.honest order) ω).2 = true ↔ Shared s loaded email := by
  obtain ⟨sort, ords, reb, hsort, hords, hmade⟩ := hm.made
  obtain ⟨b, hb, -⟩ := hs.outsider
  have hpos := List.length_pos_of_mem hb
  obtain ⟨db, hdb, h⟩ := C60_lookup_partial { s.L with read := delivering (List.ofFn ω) } W d.gob d.date
    (delivering_delivers _) hs.hash sort hsort ords hords loaded reb hm.enough hm.few hm.differ parse hm.parses hm.named
  have hdb' : db = s.db := by
    have := hdb.symm.trans hmade
    simpa using this
  subst hdb'
  obtain ⟨h1, h2, h3⟩ := h hs.describable (honestNet s.L.dpf s.db) order hf s.servers 0
    (Or.inl ⟨rfl, hpos, hs.count⟩) (honestNet_serves _ _ _)
  rw [sees_goes_on]
  have e : Client.downloadKey (s.lib ω) (s.net (s.honest order) (s.mail email (s.honest order) ω)) order s.servers email =
      Client.downloadKey { s.L with read := delivering (List.ofFn ω) } (honestNet s.L.dpf s.db) order s.servers email := by
    unfold Client.downloadKey
    rw [honest_lookup hs hn hf]
  rw [show (s.honest order).order = order from rfl, e]
  constructor
  · rintro ⟨x, hx⟩
    by_contra hc
    have hc' : ∀ k ∈ loaded, position s.L.hash (s.db.info.numRows * s.db.info.numColumns) k.id ≠
        position s.L.hash (s.db.info.numRows * s.db.info.numColumns) (bytes email) := fun k hk hp => hc ⟨k, hk, hp⟩
    have := (h3 email he hc').interactive
    rw [hx] at this
    simp [isCrash] at this
  · intro hsh
    by_cases hk : ∃ k ∈ loaded, k.id = bytes email
    · obtain ⟨k, hk, hid⟩ := hk
      obtain ⟨a, ha⟩ := hm.armored k hk
      exact ⟨_, (h1 k hk email a he hid.symm ha).interactive⟩
    · push Not at hk
      exact ⟨_, (h2 email he hk hsh).interactive⟩

/-- C141, what does hold of the interactive program: if the members do as they should and have only such e-mails looked up whose
position is that of a stored key, they learn nothing, in any number of lookups. Missing from the full claim: other e-mails, see
`C141_interactive_watched`, and members that lie, see `C141_interactive_cut`. -/
theorem C141_interactive_partial (s : Scene) (blocks : List (List Byte)) (hs : s.Sound blocks) (hn : s.servers.Nodup)
    (loaded : List Key) (parse : Key → Entity) (hm : Made s loaded parse) (d : Desk) (W : Predicate.World)
    (S : Server String Tactic (Mail × Bool)) (hD : IsTest S.decide)
    (hc : ∀ past, Proper (S.choose past) ∧ Shared s loaded (S.choose past).left ∧ Shared s loaded (S.choose past).right ∧
      ∃ order, (S.choose past).answer = s.honest order) (n : Nat) : telling (interactiveSees d W s) S n = 0 := by
  have one : ∀ (c : History.Choice String Tactic) (D : Mail × Bool → ℚ), (Proper c ∧ Shared s loaded c.left ∧
      Shared s loaded c.right ∧ ∃ order, c.answer = s.honest order) →
      advantage (interactiveSees d W s c.left c.answer) (interactiveSees d W s c.right c.answer) D = 0 := by
    rintro ⟨l, r, t⟩ D ⟨⟨h1, h2, hf⟩, hl, hr, order, ht⟩
    dsimp only at ht hl hr h1 h2 hf
    subst ht
    have hf' : Fair order := hf
    have e : ∀ email, email ≠ "" → Shared s loaded email → ∀ ω, interactiveSees d W s email (s.honest order) ω =
        (s.mail email (s.honest order) ω, true) := by
      intro email he hsh ω
      exact Prod.ext rfl ((C141_interactive_watched s blocks hs hn loaded parse hm order hf' d W email he ω).2 hsh)
    unfold advantage
    rw [abs_eq_zero, sub_eq_zero]
    dsimp only
    rcases webSees_eq hs (t := s.honest order) hf with ⟨w, hw⟩ | ⟨infos, info, hg, hd, hi, hR, hC, -⟩
    · refine avg_congr fun ω => ?_
      have h3 : s.mail l (s.honest order) ω = w.1 := congrArg Prod.fst (hw l h1 ω)
      have h4 : s.mail r (s.honest order) ω = w.1 := congrArg Prod.fst (hw r h2 ω)
      rw [e l h1 hl, e r h2 hr, h3, h4]
    · have := avg_alike (fun v => mail_alike hs hg hd hi hR hC l r v) (fun v => D (v, true))
      refine Eq.trans (avg_congr fun ω => ?_) (this.trans (avg_congr fun ω => ?_))
      · rw [e l h1 hl]
      · rw [e r h2 hr]
  have h := telling_le (cost := fun _ _ => 0) (see := interactiveSees d W s) hD _ hc (fun c D hc _ => (one c D hc).le) n
  have h2 := total_le (interactiveSees d W s) S (fun _ _ => 0) 0 le_rfl (fun _ _ => le_rfl) n []
  have h0 : 0 ≤ telling (interactiveSees d W s) S n := abs_nonneg _
  simp only [mul_zero] at h2
  exact le_antisymm (h.trans h2) h0

/-- The answer of an honest server to a message, as a value. -/
def given (s : Scene) (q : List Byte) : List Byte := valueOf (Point.answer s.L.dpf 0 s.db q)

theorem given_spec {s : Scene} {blocks : List (List Byte)} (hs : s.Sound blocks) {q : List Byte}
    (hq : q.length = s.db.info.numColumns / 8 + 1) :
    Point.answer s.L.dpf 0 s.db q = ok (given s q) ∧
      (given s q).length = s.db.info.numRows * s.db.info.blockSize := by
  obtain ⟨a, ha, hl, -⟩ := answerVec_spec hs.stores q (by rw [hq]; omega)
  have : Point.answer s.L.dpf 0 s.db q = ok a := by
    unfold Point.answer
    rw [if_neg (by decide), ha]
  unfold given
  rw [this]
  exact ⟨rfl, hl⟩

/-- What the members of a coalition that cuts its answers get, and what becomes of the lookup. -/
theorem cut_lookup {s : Scene} {blocks : List (List Byte)} (hs : s.Sound blocks) (hn : s.servers.Nodup)
    (hN : s.db.info.numRows * s.db.info.numColumns < 2 ^ 32) (hbs : 0 < s.db.info.blockSize) {c : String} (hc : c ∈ s.servers)
    (hmc : s.member c = true) {order : Schedule} (hf : Fair order) (x : Nat) (email : String) (ω : s.Coins) :
    (position s.L.hash (s.db.info.numRows * s.db.info.numColumns) (bytes email) / s.db.info.numColumns < x →
      actorLookup (s.lib ω) (s.net (s.cut order x) (s.mail email (s.cut order x) ω)) order s.servers (bytes email) =
      actorLookup (s.lib ω) (s.net (s.honest order) (s.mail email (s.honest order) ω)) order s.servers (bytes email)) ∧
    (x ≤ position s.L.hash (s.db.info.numRows * s.db.info.numColumns) (bytes email) / s.db.info.numColumns →
      (actorLookup (s.lib ω) (s.net (s.cut order x) (s.mail email (s.cut order x) ω)) order s.servers (bytes email)).isCrash) := by
  have hmail : s.mail email (s.cut order x) ω = s.mail email (s.honest order) ω := rfl
  rw [hmail]
  have hpos : 0 < s.db.info.numRows * s.db.info.numColumns := by
    rcases Nat.eq_zero_or_pos (s.db.info.numRows * s.db.info.numColumns) with h | h
    · have := hs.cells
      rw [h] at this
      simp at this
    · exact h
  have hcols := columns_pos hs
  have hsl := List.length_pos_of_mem hc
  have hpl := position_lt s.L.hash hpos (bytes email)
  have hix := hashToIndex_spec hs.hash hpos hN (bytes email)
  generalize position s.L.hash (s.db.info.numRows * s.db.info.numColumns) (bytes email) = p at *
  have hrow : p / s.db.info.numColumns < s.db.info.numRows := by
    rw [Nat.div_lt_iff_lt_mul hcols]
    exact hpl
  have hgi : ∀ t : Tactic, t.infos = (fun _ => ok (transmit (report s.db))) → ∀ v,
      gatherInfos (s.net t v) order s.servers = ok (List.replicate s.servers.length (report s.db)) := by
    intro t ht v
    refine gather_eq hf fun a _ => ?_
    show (if s.member a then t.infos a else _) = _
    rw [ht, transmit_report hs.describable]
    simp
  have hidx : idx (List.replicate s.servers.length (report s.db)) 0 = ok (report s.db) := by
    rw [idx_eq_ok]
    simp [hsl]
  -- the queries
  have hq : lookupQueries (s.lib ω) s.servers.length (pointInfo (report s.db)) (bytes email) =
      ok (shares s.db.info.numColumns (p % s.db.info.numColumns) (s.servers.length - 1) (List.ofFn ω),
        ⟨((p / s.db.info.numColumns : Nat) : Int), ((p % s.db.info.numColumns : Nat) : Int)⟩) := by
    unfold lookupQueries
    have hix' : hashToIndex (s.lib ω).hash (bytes email)
      ((pointInfo (report s.db)).numRows * (pointInfo (report s.db)).numColumns) = ok p := hix
    rw [hix', ok_bind]
    dsimp only
    unfold queryBytes
    have : getBE32 (putBE32 (BitVec.ofNat 32 p)) = ok (BitVec.ofNat 32 p) := by
      have := getBE32_put (BitVec.ofNat 32 p) []
      rwa [List.append_nil] at this
    rw [this, ok_bind, BitVec.toNat_ofNat, Nat.mod_eq_of_lt (by omega)]
    exact query_fixed s.L.dpf (info := pointInfo (report s.db)) hcols hsl hs.count (by rw [List.length_ofFn]; rfl)
  have hlen := shares_length s.db.info.numColumns (p % s.db.info.numColumns) (s.servers.length - 1) (List.ofFn ω)
  have hqs := shares_mem_length (C := s.db.info.numColumns) (y := p % s.db.info.numColumns) (m := s.servers.length - 1)
    (rand := List.ofFn ω) (by rw [List.length_ofFn])
  generalize shares s.db.info.numColumns (p % s.db.info.numColumns) (s.servers.length - 1) (List.ofFn ω) = qs at *
  have hsend := sends_eq s.servers qs (by omega)
  have hm : s.mail email (s.honest order) ω = (s.servers.zip qs).filter (fun m => s.member m.1) := by
    unfold Scene.mail messages
    have ho : (s.honest order).order = order := rfl
    rw [ho, hgi (s.honest order) rfl, ok_bind, getDBInfos_replicate hsl, ok_bind, hidx, ok_bind, hq, ok_bind]
    dsimp only
    rw [hsend]
  -- the answers
  have hans : ∀ a q, (a, q) ∈ s.servers.zip qs → s.member a = true →
      (s.honest order).replies (s.mail email (s.honest order) ω) a = ok (given s q) := by
    intro a q haq hma
    show (match (s.mail email (s.honest order) ω).find? (fun m => m.1 = a) with
        | some m => Point.answer s.L.dpf 0 s.db m.2
        | none => err "no message") = _
    rw [hm, find_address ?_ (a := a) (q := q) (List.mem_filter.2 ⟨haq, hma⟩)]
    · exact (given_spec hs (hqs q (List.of_mem_zip haq).2)).1
    · have hsub : (((s.servers.zip qs).filter (fun m => s.member m.1)).map Prod.fst).Sublist s.servers := by
        refine ((List.filter_sublist).map Prod.fst).trans ?_
        rw [List.map_fst_zip]
        omega
      exact hsub.nodup hn
  generalize s.mail email (s.honest order) ω = v at *
  let g : String × List Byte → List Byte := fun m => given s m.2
  let g' : String × List Byte → List Byte := fun m =>
    if s.member m.1 then (given s m.2).take (x * s.db.info.blockSize) else given s m.2
  have hrun : runQueriesActor (s.net (s.honest order) v) order s.servers qs = ok (order.answers ((s.servers.zip qs).map g)) := by
    unfold runQueriesActor
    rw [hsend, ok_bind, Verif.Deploy.mapM_eq (g := g) (by
      rintro ⟨a, q⟩ haq
      show orFatal (if s.member a then _ else Point.answer s.L.dpf 0 s.db q) = ok (given s q)
      cases hma : s.member a with
      | true => rw [if_pos rfl, hans a q haq hma]; rfl
      | false => rw [if_neg (by simp), (given_spec hs (hqs q (List.of_mem_zip haq).2)).1]; rfl), ok_bind]
  have hrun' : runQueriesActor (s.net (s.cut order x) v) order s.servers qs = ok (order.answers ((s.servers.zip qs).map g')) := by
    unfold runQueriesActor
    rw [hsend, ok_bind, Verif.Deploy.mapM_eq (g := g') (by
      rintro ⟨a, q⟩ haq
      show orFatal (if s.member a then ((s.honest order).replies v a >>= fun r => ok (r.take (x * s.db.info.blockSize)))
        else Point.answer s.L.dpf 0 s.db q) = ok (if s.member a then (given s q).take (x * s.db.info.blockSize) else given s q)
      cases hma : s.member a with
      | true => rw [if_pos rfl, if_pos rfl, hans a q haq hma]; rfl
      | false => rw [if_neg (by simp), if_neg (by simp), (given_spec hs (hqs q (List.of_mem_zip haq).2)).1]; rfl), ok_bind]
  -- the reconstruction
  have hdown : ∀ t : Tactic, t.infos = (fun _ => ok (transmit (report s.db))) →
      actorLookup (s.lib ω) (s.net t v) order s.servers (bytes email) =
      (runQueriesActor (s.net t v) order s.servers qs >>= fun answers =>
        (MerklePir.reconstructPIR (s.lib ω).H answers (pointInfo (report s.db))
          ⟨((p / s.db.info.numColumns : Nat) : Int), ((p % s.db.info.numColumns : Nat) : Int)⟩ >>= fun result =>
        (Padding.unPadBlock result >>= fun result =>
        (recoverKeyFromBlock (s.lib ω).lower (s.lib ω).readRing result (bytes email) >>= fun e => (s.lib ω).armor e)))) := by
    intro t ht
    unfold actorLookup
    rw [hgi t ht, ok_bind, getDBInfos_replicate hsl, ok_bind, hidx, ok_bind]
    unfold Client.lookup
    rw [hq, ok_bind]
  rw [hdown (s.cut order x) rfl, hdown (s.honest order) rfl, hrun, hrun', ok_bind, ok_bind]
  have hcut : ∀ m ∈ s.servers.zip qs, ((given s m.2).take (x * s.db.info.blockSize)).length =
      min x s.db.info.numRows * s.db.info.blockSize := by
    intro m hm
    rw [List.length_take, (given_spec hs (hqs m.2 (List.of_mem_zip hm).2)).2, Nat.mul_min_mul_right]
  constructor
  · intro hx
    have hv : ∀ st : Point.State, st.ix = ((p / s.db.info.numColumns : Nat) : Int) →
        reconstructValue (order.answers ((s.servers.zip qs).map g')) (pointInfo (report s.db)) st =
        reconstructValue (order.answers ((s.servers.zip qs).map g)) (pointInfo (report s.db)) st := by
      rintro ⟨ix, iy⟩ hst
      dsimp only at hst
      subst hst
      rw [C05_point_order _ _ _ _ (hf.answers ((s.servers.zip qs).map g')),
        C05_point_order _ _ _ _ (hf.answers ((s.servers.zip qs).map g))]
      have hpart : ∀ m ∈ s.servers.zip qs, part (pointInfo (report s.db)) ⟨((p / s.db.info.numColumns : Nat) : Int), iy⟩ (g' m) =
          part (pointInfo (report s.db)) ⟨((p / s.db.info.numColumns : Nat) : Int), iy⟩ (g m) := by
        intro m hm
        show part _ _ (if s.member m.1 then _ else _) = part _ _ (given s m.2)
        split
        · have h1 := (given_spec hs (hqs m.2 (List.of_mem_zip hm).2)).2
          have h2 := hcut m hm
          rw [part_of_row (info := pointInfo (report s.db)) (R := s.db.info.numRows) h1 hrow,
            part_of_row (info := pointInfo (report s.db)) (R := min x s.db.info.numRows) h2 (by omega)]
          congr 1
          have hb := row_bound (C := s.db.info.blockSize) hx
          show rowOf _ s.db.info.blockSize _ = rowOf _ s.db.info.blockSize _
          unfold rowOf
          rw [List.drop_take, List.take_take]
          congr 1
          omega
        · rfl
      rw [reconstructValue_eq, reconstructValue_eq]
      have h1 : (∀ a ∈ (s.servers.zip qs).map g', ∃ r, part (pointInfo (report s.db))
          ⟨((p / s.db.info.numColumns : Nat) : Int), iy⟩ a = ok r) ↔ (∀ a ∈ (s.servers.zip qs).map g, ∃ r,
          part (pointInfo (report s.db)) ⟨((p / s.db.info.numColumns : Nat) : Int), iy⟩ a = ok r) := by
        simp only [List.forall_mem_map]
        refine forall₂_congr fun m hm => ?_
        rw [hpart m hm]
      have h2 : ((s.servers.zip qs).map g').map (fun a => valueOf (part (pointInfo (report s.db))
          ⟨((p / s.db.info.numColumns : Nat) : Int), iy⟩ a)) = ((s.servers.zip qs).map g).map (fun a => valueOf
          (part (pointInfo (report s.db)) ⟨((p / s.db.info.numColumns : Nat) : Int), iy⟩ a)) := by
        rw [List.map_map, List.map_map]
        refine List.map_congr_left fun m hm => ?_
        show valueOf (part _ _ (g' m)) = valueOf (part _ _ (g m))
        rw [hpart m hm]
      rw [h2]
      by_cases h : ∀ a ∈ (s.servers.zip qs).map g, ∃ r,
          part (pointInfo (report s.db)) ⟨((p / s.db.info.numColumns : Nat) : Int), iy⟩ a = ok r
      · rw [if_pos h, if_pos (h1.2 h)]
      · rw [if_neg h, if_neg (fun h' => h (h1.1 h'))]
    unfold MerklePir.reconstructPIR
    rw [hv _ rfl]
  · intro hx
    have hv : ∃ m, MerklePir.reconstructPIR (s.lib ω).H (order.answers ((s.servers.zip qs).map g')) (pointInfo (report s.db))
        ⟨((p / s.db.info.numColumns : Nat) : Int), ((p % s.db.info.numColumns : Nat) : Int)⟩ = crash m := by
      have : reconstructValue (order.answers ((s.servers.zip qs).map g')) (pointInfo (report s.db))
          ⟨((p / s.db.info.numColumns : Nat) : Int), ((p % s.db.info.numColumns : Nat) : Int)⟩ =
          crash "slice bounds out of range" := by
        rw [reconstructValue_eq, if_neg]
        intro hall
        obtain ⟨k, hk, hke⟩ := List.getElem_of_mem hc
        have hk2 : k < qs.length := by omega
        have hz : (c, qs[k]) ∈ s.servers.zip qs := by
          rw [List.mem_iff_getElem]
          exact ⟨k, by rw [List.length_zip]; omega, by rw [List.getElem_zip, hke]⟩
        obtain ⟨r, hr⟩ := hall (g' (c, qs[k])) ((hf.answers _).mem_iff.2 (List.mem_map.2 ⟨_, hz, rfl⟩))
        have hg' : g' (c, qs[k]) = (given s qs[k]).take (x * s.db.info.blockSize) := if_pos hmc
        have hl := hcut _ hz
        dsimp only at hl
        rw [hg'] at hr
        unfold part sliceInt at hr
        split at hr
        · simp at hr
        · rw [slice_eq_ok] at hr
          obtain ⟨-, hle, -⟩ := hr
          rw [hl] at hle
          have e : (((pointInfo (report s.db)).blockSize : Int) * (((p / s.db.info.numColumns : Nat) : Int) + 1)).toNat =
              s.db.info.blockSize * (p / s.db.info.numColumns + 1) := by
            have : ((pointInfo (report s.db)).blockSize : Int) * (((p / s.db.info.numColumns : Nat) : Int) + 1) =
                ((s.db.info.blockSize * (p / s.db.info.numColumns + 1) : Nat) : Int) := by push_cast; rfl
            rw [this, Int.toNat_natCast]
          dsimp only at hle
          rw [e, Nat.mul_comm] at hle
          have := Nat.le_of_mul_le_mul_right hle hbs
          omega
      unfold MerklePir.reconstructPIR
      rw [this, crash_bind]
      split
      · exact ⟨_, rfl⟩
      · split <;> exact ⟨_, rfl⟩
    obtain ⟨m, hm⟩ := hv
    rw [hm, crash_bind]
    trivial

/-- C141: members that leave out the rows from the `x`-th on, one of them at least, find the program there after a lookup exactly if
some stored key has the position of the e-mail and the row of that position is before the `x`-th. By choosing `x` they search for
the row: each lookup of the same e-mail halves the rows in question. -/
theorem C141_interactive_cut (s : Scene) (blocks : List (List Byte)) (hs : s.Sound blocks) (hn : s.servers.Nodup)
    (hN : s.db.info.numRows * s.db.info.numColumns < 2 ^ 32) (hbs : 0 < s.db.info.blockSize)
    (hc : ∃ c ∈ s.servers, s.member c = true) (loaded : List Key) (parse : Key → Entity) (hm : Made s loaded parse)
    (order : Schedule) (hf : Fair order) (d : Desk) (W : Predicate.World) (email : String) (he : email ≠ "") (x : Nat)
    (ω : s.Coins) :
    (interactiveSees d W s email (s.cut order x) ω).2 = true ↔ Shared s loaded email ∧
      position s.L.hash (s.db.info.numRows * s.db.info.numColumns) (bytes email) / s.db.info.numColumns < x := by
  obtain ⟨c, hc, hmc⟩ := hc
  obtain ⟨h1, h2⟩ := cut_lookup hs hn hN hbs hc hmc hf x email ω
  rw [← C141_interactive_watched s blocks hs hn loaded parse hm order hf d W email he ω, sees_goes_on, sees_goes_on]
  rw [show (s.cut order x).order = order from rfl, show (s.honest order).order = order from rfl]
  rcases Nat.lt_or_ge (position s.L.hash (s.db.info.numRows * s.db.info.numColumns) (bytes email) / s.db.info.numColumns) x with
    h | h
  · have e : Client.downloadKey (s.lib ω) (s.net (s.cut order x) (s.mail email (s.cut order x) ω)) order s.servers email =
        Client.downloadKey (s.lib ω) (s.net (s.honest order) (s.mail email (s.honest order) ω)) order s.servers email := by
      unfold Client.downloadKey
      rw [h1 h]
    rw [e, and_iff_left h]
  · have h2 := h2 h
    constructor
    · rintro ⟨y, hy⟩
      unfold Client.downloadKey at hy
      generalize actorLookup (s.lib ω) (s.net (s.cut order x) (s.mail email (s.cut order x) ω)) order s.servers (bytes email) = r at *
      cases r with
      | ok k => exact h2.elim
      | err m => exact h2.elim
      | crash m => cases hy
    · rintro ⟨-, h'⟩
      omega

/-! ### The claim as a whole -/

/-- The database of the twenty keys. -/
def twentyDb : Database.Bytes :=
  ⟨(storedBlocks lengthHash 2 (sortDesc twenty)).flatten,
    { numRows := 1, numColumns := 2, blockSize := longest lengthHash 2 (sortDesc twenty) + 1,
      blockLengths := (storedBlocks lengthHash 2 (sortDesc twenty)).map List.length, pirType := "", root := [], proofLen := 0 }⟩

/-- Three servers with the twenty keys. The last one is a coalition of its own. -/
def twentyScene : Scene := ⟨exLib Point.plainDpf, ["a", "b", "c"], fun a => a = "c", twentyDb⟩

theorem twentyScene_sound : twentyScene.Sound (storedBlocks lengthHash 2 (sortDesc twenty)) where
  hash := lengthHash_long
  outsider := ⟨"a", by decide, by decide⟩
  count := by decide
  stores := ⟨by decide, ⟨[], by simp [twentyScene, twentyDb]⟩, rfl, by decide⟩
  describable := by constructor <;> decide
  cells := by decide

theorem twentyScene_made : Made twentyScene twenty (fun k => entityOf k.id) where
  made := ⟨sortDesc, reversed, false, sortDesc_sorts, reversed_fair,
    generateRealKeyBytes_eq lengthHash_long sortDesc_sorts reversed_fair twenty (by decide) (by decide) false
      (R := 1) (C := 2) (by decide)⟩
  enough := by decide
  few := by decide
  differ := by decide
  parses := twenty_parses
  named := twenty_named
  armored := fun _ _ => ⟨_, rfl⟩

/-- A server that has "zz" or "z" looked up and says whether the program is still there. -/
def watcher : Server String Tactic (Mail × Bool) where
  choose _ := ⟨"zz", "z", twentyScene.honest backwards⟩
  decide vs := match vs with
    | v :: _ => if v.2 then 1 else 0
    | [] => 0

theorem watcher_test : IsTest watcher.decide := by
  intro vs
  cases vs with
  | nil => exact ⟨le_rfl, zero_le_one⟩
  | cons v _ =>
    show 0 ≤ (if v.2 then (1 : ℚ) else 0) ∧ (if v.2 then (1 : ℚ) else 0) ≤ 1
    split <;> norm_num

theorem watcher_proper (past : List (Mail × Bool)) : Proper (watcher.choose past) := by
  have h1 : ("zz" : String) ≠ "" := by decide
  have h2 : ("z" : String) ≠ "" := by decide
  exact ⟨h1, h2, backwards_fair⟩

theorem zz_shared : Shared twentyScene twenty "zz" := ⟨⟨[3, 1], [3]⟩, by decide, by decide⟩

theorem z_alone : ¬ Shared twentyScene twenty "z" := by
  unfold Shared
  decide

/-- C141 as claimed is false: one honest server of three learns from the end of the interactive program that no stored key has the
position of the e-mail. It tells "zz" from "z" with certainty. -/
theorem C141_refuted : ¬ C141_Statement := by
  intro h
  have h0 := (h twentyScene _ twentyScene_sound watcher watcher_test watcher_proper 1).2 exDesk exWorld
  have key : ∀ email, email ≠ "" → ∀ ω, (interactiveSees exDesk exWorld twentyScene email (twentyScene.honest backwards) ω).2 =
      true ↔ Shared twentyScene twenty email := fun email he ω =>
    C141_interactive_watched twentyScene _ twentyScene_sound (by decide) twenty _ twentyScene_made backwards backwards_fair
      exDesk exWorld email he ω
  have e1 : History.session (interactiveSees exDesk exWorld twentyScene) watcher false 1 [] = 1 := by
    rw [History.session]
    refine (avg_congr fun ω => ?_).trans (avg_const (1 : ℚ))
    rw [History.session]
    show (if (interactiveSees exDesk exWorld twentyScene "zz" (twentyScene.honest backwards) ω).2 then (1 : ℚ) else 0) = 1
    rw [if_pos ((key "zz" (by decide) ω).2 zz_shared)]
  have e2 : History.session (interactiveSees exDesk exWorld twentyScene) watcher true 1 [] = 0 := by
    rw [History.session]
    refine (avg_congr fun ω => ?_).trans (avg_const (0 : ℚ))
    rw [History.session]
    show (if (interactiveSees exDesk exWorld twentyScene "z" (twentyScene.honest backwards) ω).2 then (1 : ℚ) else 0) = 0
    rw [if_neg (fun hc => z_alone ((key "z" (by decide) ω).1 hc))]
  unfold telling at h0
  rw [e1, e2] at h0
  norm_num at h0

/-- The hypotheses of the positive theorem hold of the web front end, of which the same server learns nothing. -/
example (n : Nat) : telling (webSees twentyScene) watcher n = 0 :=
  C141_web_partial twentyScene _ twentyScene_sound watcher watcher_test watcher_proper n

/-- The hypotheses hold if the server does not cut, and if it does. -/
example (ω : twentyScene.Coins) :
    (interactiveSees exDesk exWorld twentyScene "zz" (twentyScene.honest backwards) ω).2 = true ∧
    (interactiveSees exDesk exWorld twentyScene "zz" (twentyScene.cut backwards 1) ω).2 = true ∧
    ¬ (interactiveSees exDesk exWorld twentyScene "zz" (twentyScene.cut backwards 0) ω).2 = true := by
  have h := fun x => C141_interactive_cut twentyScene _ twentyScene_sound (by decide) (by decide) (by decide)
    ⟨"c", by decide, by decide⟩ twenty _ twentyScene_made backwards backwards_fair exDesk exWorld "zz" (by decide) x ω
  refine ⟨(C141_interactive_watched twentyScene _ twentyScene_sound (by decide) twenty _ twentyScene_made backwards
    backwards_fair exDesk exWorld "zz" (by decide) ω).2 zz_shared, (h 1).2 ⟨zz_shared, by decide⟩, fun hc => ?_⟩
  exact Nat.not_lt_zero _ ((h 0).1 hc).2

/-- The hypotheses hold of a server that has stored keys and absent ones with their position looked up. -/
example (n : Nat) : telling (interactiveSees exDesk exWorld twentyScene) ⟨fun _ => ⟨"zz", "\x03\x01", twentyScene.honest backwards⟩,
    watcher.decide⟩ n = 0 := by
  have h1 : ("zz" : String) ≠ "" := by decide
  have h2 : ("\x03\x01" : String) ≠ "" := by decide
  have h3 : Shared twentyScene twenty "\x03\x01" := ⟨⟨[3, 1], [3]⟩, by decide, by decide⟩
  exact C141_interactive_partial twentyScene _ twentyScene_sound (by decide) twenty _ twentyScene_made exDesk exWorld
    ⟨fun _ => ⟨"zz", "\x03\x01", twentyScene.honest backwards⟩, watcher.decide⟩ watcher_test
    (fun _ => ⟨⟨h1, h2, backwards_fair⟩, zz_shared, h3, backwards, rfl⟩) n

end Verif.Presence
