import Verif.Props.StatsPresence
import Verif.Props.Web

/-! # C161: what a predicate server learns from whether the web front end is still there after a count -/

namespace Verif.Presence.Spec
open Res Verif.Cmd Verif.Client Verif.Client.Spec Verif.Web Verif.Predicate Verif.Query Verif.Forge Verif.Forge.Spec Verif.Uniform

/-- A form that asks the web front end for the number of keys with a text at the beginning or end of the address, with an algorithm,
or created before a year; and the query that this means. -/
inductive AsksWeb (hash : List Byte → List Byte) (date : Int → Time) (path : String) (form : Request) (q : ClientFSS) : Prop
  | email (hp : path = "/count/email") (hf : form.parse = ok ()) (position : form.value "position" = "begin" ∨ form.value "position" = "end")
      (text : form.value "text" ≠ "")
      (hq : toEmailClientFSS hash ⟨0, if form.value "position" = "begin" then ((bytes (form.value "text")).length : Int) else 0,
        if form.value "position" = "begin" then 0 else ((bytes (form.value "text")).length : Int), false, false, false⟩
        (bytes (form.value "text")) = ok q)
  | algo (hp : path = "/count/algo") (hf : form.parse = ok ()) (text : form.value "algo" ≠ "")
      (hq : toPKAClientFSS ⟨2, 0, 0, false, false, false⟩ (form.value "algo") = ok q)
  | year (hp : path = "/count/timestamp") (hf : form.parse = ok ()) (text : form.value "year" ≠ "") (y : Int)
      (hy : Cmd.atoi (form.value "year").toList = ok y) (hq : toCreationTimeClientFSS date ⟨1, 0, 0, false, false, false⟩ y = ok q)

/-- The process is still there after the request. -/
def Lives (w : Site) (v : Visit) : Prop := ∀ m, Web.handle w v ≠ .exits m

/-- A request for a count, as the user makes it. -/
structure Form where
  path : String
  form : Request
  header : String
  clock : String

/-- The request, in these circumstances. -/
def Form.meets (f : Form) (w : Weather) : Visit := ⟨f.path, f.form, f.header, f.clock, w⟩

open Classical in
/-- What the lying server sees of a request that means the query `q`: its message, and whether the process is still there. -/
noncomputable def webStatsSees (w : Site) (net : Net) (S : Msg → Schedule) (mal : Bool) (W : World) (f : Form) (q : ClientFSS) :
    Res Msg × Bool :=
  match sentTo W q mal with
  | ok m => (ok m, decide (Lives w (f.meets ⟨net, S m, W⟩)))
  | err m => (err m, false)
  | crash m => (crash m, false)

/-- The mean of a test on this, over the client's randomness. -/
noncomputable def webStatsProb (w : Site) (net : Net) (S : Msg → Schedule) (mal : Bool) (W : World) (f : Form) (q : ClientFSS)
    (D : Res Msg × Bool → ℚ) : ℚ :=
  runMean (fun β α s0 s1 tb => D (webStatsSees w net S mal (drawn W β α s0 s1 tb) f q))

open Classical in
/-- The test on keys that shows `D` the message and whether the server itself answers it. -/
noncomputable def ownDecision (i : Query.Info) (F : Msg → Res (List Byte)) (D : Res Msg × Bool → ℚ) : Res Fss.Key → ℚ
  | ok k => D (ok ⟨i, k⟩, decide (∃ b, F ⟨i, k⟩ = ok b))
  | err _ => 0
  | crash _ => 0

/-- A form, the query that it means, and the keys it is about. -/
structure WebAsk where
  form : Form
  query : ClientFSS
  about : KeyInfo → Prop

/-- The way the lying server answers a request. -/
structure WebTactic where
  net : Net
  order : Msg → Schedule
  reply : Msg → Res (List Byte)

/-- What the lying server sees of a request. -/
noncomputable def webCountSees (w : Site) (mal : Bool) (W : World) (i : WebAsk) (a : WebTactic) (x : Draw) : Res Msg × Bool :=
  webStatsSees w a.net a.order mal (drawnBy W x) i.form i.query

/-- A proposal of the lying server: two counts with the same public part, and a way of answering. -/
structure FairWeb (w : Site) (W : World) (db : KeyDB) (info : DbInfo) (a0 a1 : String) (mal : Bool)
    (c : History.Choice WebAsk WebTactic) : Prop where
  orders : ∀ m, Fair (c.answer.order m)
  among : LiarAmong c.answer.net W w.gob db info a0 a1 mal c.answer.reply
  left : AsksWeb W.hash w.date c.left.form.path c.left.form.form c.left.query
  right : AsksWeb W.hash w.date c.right.form.path c.right.form.form c.right.query
  leftAsks : Predicate.Spec.Asks W.hash w.date db c.left.query c.left.about
  rightAsks : Predicate.Spec.Asks W.hash w.date db c.right.query c.right.about
  info : c.left.query.info = c.right.query.info
  length : c.left.query.input.length = c.right.query.input.length

end Verif.Presence.Spec

namespace Verif.Presence
open Res Verif.Cmd Verif.Client Verif.Client.Spec Verif.Web Verif.Field Verif.Field.Spec Verif.Predicate
  Verif.Predicate.Spec Verif.Query Verif.Privacy Verif.Reaction Verif.Forge Verif.Forge.Spec Verif.Chance Verif.Presence.Spec Verif.Fss Verif.Fss.Spec
set_option linter.constructorNameAsVariable false

/-- The process ends with the query. -/
theorem lives_iff {w : Site} {f : Form} {x : Weather} {q : ClientFSS} (ha : AsksWeb x.W.hash w.date f.path f.form q) :
    Lives w (f.meets x) ↔ ∀ m, Web.executeStatsQuery x.W w.gob x.net x.S w.complex q ≠ .exits m := by
  have hserve : Lives w (f.meets x) ↔ ∀ m, serve w (f.meets x) ≠ .exits m := by
    unfold Lives handle
    refine forall_congr' fun m => not_congr ?_
    cases serve w (f.meets x) <;> simp
  rw [hserve]
  refine forall_congr' fun m => not_congr ?_
  cases ha with
  | email hp hf hpos ht hq =>
    have h1 : f.form.value "position" ≠ "" := by rcases hpos with h | h <;> rw [h] <;> decide
    have h3 : ¬ (f.form.value "position" ≠ "begin" ∧ f.form.value "position" ≠ "end") := by
      rcases hpos with h | h <;> simp [h]
    unfold serve
    rw [if_neg (by show ¬ f.path = _; rw [hp]; decide), if_pos (by rw [Form.meets, hp])]
    unfold countEmail Form.meets
    dsimp only
    rw [hf]
    dsimp only
    rw [if_neg h1, if_neg ht, if_neg h3, hq]
    dsimp only [calls]
    rw [bind_done]
    cases Web.executeStatsQuery x.W w.gob x.net x.S w.complex q <;> simp
  | algo hp hf ht hq =>
    unfold serve
    rw [if_neg (by show ¬ f.path = _; rw [hp]; decide), if_neg (by show ¬ f.path = _; rw [hp]; decide), if_pos (by rw [Form.meets, hp])]
    unfold countAlgo Form.meets
    dsimp only
    rw [hf]
    dsimp only
    rw [if_neg ht, hq]
    dsimp only [calls]
    rw [bind_done]
    cases Web.executeStatsQuery x.W w.gob x.net x.S w.complex q <;> simp
  | year hp hf ht y hy hq =>
    unfold serve
    rw [if_neg (by show ¬ f.path = _; rw [hp]; decide), if_neg (by show ¬ f.path = _; rw [hp]; decide), if_neg (by show ¬ f.path = _; rw [hp]; decide),
      if_pos (by rw [Form.meets, hp])]
    unfold countTimestamp Form.meets
    dsimp only
    rw [hf]
    dsimp only
    rw [if_neg ht]
    unfold creationQuery
    rw [hy, show fatal (ok y : Res Int) = .done y from rfl, bind_done, hq]
    dsimp only [calls]
    rw [bind_done]
    cases Web.executeStatsQuery x.W w.gob x.net x.S w.complex q <;> simp

/-- The query ends the process exactly if the lying server makes its call fail. -/
theorem exec_exits {net : Net} {S : Schedule} (hS : Fair S) {W : World} {gob : Msg → List Byte} {db : KeyDB} {info : DbInfo}
    {a0 a1 : String} {mal : Bool} {F : Msg → Res (List Byte)} (hnet : LiarAmong net W gob db info a0 a1 mal F) {q : ClientFSS}
    {x y : Msg} {st : State} {rnd : Rand.Prg} {o : List Byte}
    (hq : Predicate.query W.env W.fuel 5 W.rnd W.buf W.r1 W.r2 q 2 = ok ([x, y], st, rnd, o))
    {bh : List Byte} (hh : W.serve (if mal then 0 else 1) 5 db (if mal then x else y) = ok bh) :
    (∀ m, Web.executeStatsQuery W gob net S [a0, a1] q ≠ .exits m) ↔ ∃ b, F (if mal then y else x) = ok b := by
  unfold Web.executeStatsQuery
  have hg : gatherInfos net S [a0, a1] = ok (List.replicate 2 info) :=
    gather_eq hS (i := info) (servers := [a0, a1]) (by
      intro a ha
      simp only [List.mem_cons, List.not_mem_nil, or_false] at ha
      rcases ha with rfl | rfl
      · exact hnet.info0
      · exact hnet.info1)
  rw [hg, show fatal (ok (List.replicate 2 info)) = .done (List.replicate 2 info) from rfl, bind_done,
    getDBInfos_replicate (by decide), show calls (ok (List.replicate 2 info)) = .done (List.replicate 2 info) from rfl, bind_done,
    show idx (List.replicate 2 info) 0 = ok info from rfl, show calls (ok info) = .done info from rfl, bind_done,
    List.length_replicate, if_neg (by decide), show Field.concurrentExecutions + 1 = 5 from rfl,
    show (((2 : Nat) : Int)) = 2 from rfl, hq]
  dsimp only [calls]
  rw [bind_done]
  dsimp only
  unfold Web.runQueries
  rw [sends_eq _ _ (by simp)]
  dsimp only [calls]
  rw [bind_done]
  simp only [List.map_cons, List.map_nil, List.zip_cons_cons, List.zip_nil_right, List.mapM_cons, List.mapM_nil,
    pure_eq, hnet.answer0, hnet.answer1]
  cases mal
  · simp only [Bool.false_eq_true, if_false] at hh ⊢
    rw [hh]
    cases F x with
    | ok b =>
      simp only [orFatal, ok_bind, fatal, bind_done]
      refine ⟨fun _ => ⟨b, rfl⟩, fun _ m => ?_⟩
      cases reconstructBytes 5 st (S.answers [b, bh]) <;> exact fun h => by cases h
    | err m => exact ⟨fun h => absurd rfl (h _), fun ⟨b, h⟩ => by cases h⟩
    | crash m => exact ⟨fun h => absurd rfl (h _), fun ⟨b, h⟩ => by cases h⟩
  · simp only [if_true] at hh ⊢
    rw [hh]
    cases F y with
    | ok b =>
      simp only [orFatal, ok_bind, fatal, bind_done]
      refine ⟨fun _ => ⟨b, rfl⟩, fun _ m => ?_⟩
      cases reconstructBytes 5 st (S.answers [bh, b]) <;> exact fun h => by cases h
    | err m => exact ⟨fun h => absurd rfl (h _), fun ⟨b, h⟩ => by cases h⟩
    | crash m => exact ⟨fun h => absurd rfl (h _), fun ⟨b, h⟩ => by cases h⟩

/-- C161: the lying server sees its message, and whether it has made its own call fail. -/
theorem C161_sees {w : Site} {net : Net} {S : Msg → Schedule} (hF : ∀ m, Fair (S m)) {W : World} {db : KeyDB} {info : DbInfo}
    {a0 a1 : String} (hw : w.complex = [a0, a1]) {mal : Bool} {F : Msg → Res (List Byte)}
    (hnet : LiarAmong net W w.gob db info a0 a1 mal F) {f : Form} {q : ClientFSS} (hq : AsksWeb W.hash w.date f.path f.form q)
    {e : U32} {fr : Nat → U32} (hh : ∀ t, (W.hash t).length = 32) (hS : Setup W mal e fr) (hdb : Loaded db) {P : KeyInfo → Prop}
    (ha : Asks W.hash w.date db q P) (D : Res Msg × Bool → ℚ) (β : Fin 3 → Fin p) (α : Fin p) (s0 s1 : Fin 16 → Byte) (tb : Byte) :
    D (webStatsSees w net S mal (drawn W β α s0 s1 tb) f q)
      = ownDecision q.info F D (received W.env mal q.input (shared β) s0 s1 tb α) := by
  classical
  obtain ⟨k0, k1, o, hg, hsec⟩ := keys_five hS.cipher hS.draw hS.canonical hS.buf q.input β α s0 s1 tb
  obtain ⟨hrec, hT⟩ := hsec mal
  obtain ⟨rnd', hd⟩ := drawKeys_mac hS.fuel β α
  have hqq : query W.env W.fuel 5 (macSource β α) W.buf (List.ofFn s0 ++ [tb]) (List.ofFn s1) q 2 =
      ok ([⟨q.info, k0⟩, ⟨q.info, k1⟩], clientState β α, rnd', o) := by
    unfold query
    rw [if_neg (by simp), hd]
    simp only [ok_bind]
    rw [show (clientState β α).a = vals (shared β) α from rfl, hg]
    rfl
  obtain ⟨h1, h2, h3, h4, g, hsel, hlen, hP⟩ := asks_selectors hh ha
  obtain ⟨bh, H, hb, -⟩ := honest_count hS hdb h1 h2 h3 hsel hlen hT.okh
  have hsent : sentTo (drawn W β α s0 s1 tb) q mal = ok ⟨q.info, if mal then k1 else k0⟩ := by
    unfold sentTo
    have hq2 : query (drawn W β α s0 s1 tb).env (drawn W β α s0 s1 tb).fuel 5 (drawn W β α s0 s1 tb).rnd (drawn W β α s0 s1 tb).buf
        (drawn W β α s0 s1 tb).r1 (drawn W β α s0 s1 tb).r2 q 2 = ok ([⟨q.info, k0⟩, ⟨q.info, k1⟩], clientState β α, rnd', o) := hqq
    rw [hq2, ok_bind]
    cases mal <;> rfl
  rw [hrec]
  unfold webStatsSees ownDecision
  rw [hsent]
  dsimp only
  have key : Lives w (f.meets ⟨net, S ⟨q.info, if mal then k1 else k0⟩, drawn W β α s0 s1 tb⟩) ↔
      ∃ b, F ⟨q.info, if mal then k1 else k0⟩ = ok b := by
    rw [lives_iff (x := ⟨net, S ⟨q.info, if mal then k1 else k0⟩, drawn W β α s0 s1 tb⟩) hq, hw]
    have h := exec_exits (hF ⟨q.info, if mal then k1 else k0⟩) (W := drawn W β α s0 s1 tb) (gob := w.gob)
      ⟨hnet.info0, hnet.info1, hnet.answer0, hnet.answer1⟩ hqq (bh := bh) (by
        rw [← hb]
        cases mal <;> rfl)
    rw [show (⟨q.info, if mal then k1 else k0⟩ : Msg) = if mal then ⟨q.info, k1⟩ else ⟨q.info, k0⟩ by cases mal <;> rfl] at h ⊢
    exact h
  simp only [key]

theorem ownDecision_unit (i : Query.Info) (F : Msg → Res (List Byte)) {D : Res Msg × Bool → ℚ} (hD : IsTest D) (k : Res Key) :
    0 ≤ ownDecision i F D k ∧ ownDecision i F D k ≤ 1 := by
  cases k with
  | ok k => exact hD _
  | err m => exact ⟨le_rfl, zero_le_one⟩
  | crash m => exact ⟨le_rfl, zero_le_one⟩

/-- C161: that the web front end is still there after a count tells a lying server nothing beyond its message: message and presence
look alike for two counts with the same public part up to what the message alone can reveal. -/
theorem C161_web (w : Site) (net : Net) (S : Msg → Schedule) (hF : ∀ m, Fair (S m)) (W : World) (db : KeyDB) (info : DbInfo)
    (a0 a1 : String) (hw : w.complex = [a0, a1]) (mal : Bool) (F : Msg → Res (List Byte))
    (hnet : LiarAmong net W w.gob db info a0 a1 mal F) (f f' : Form) (q q' : ClientFSS)
    (hq : AsksWeb W.hash w.date f.path f.form q) (hq' : AsksWeb W.hash w.date f'.path f'.form q')
    (e : U32) (fr : Nat → U32) (hh : ∀ t, (W.hash t).length = 32) (hS : Setup W mal e fr) (hdb : Loaded db) (P P' : KeyInfo → Prop)
    (ha : Asks W.hash w.date db q P) (ha' : Asks W.hash w.date db q' P') (hinfo : q.info = q'.info)
    (hl : q.input.length = q'.input.length) (D : Res Msg × Bool → ℚ) (hD : IsTest D) :
    |webStatsProb w net S mal W f q D - webStatsProb w net S mal W f' q' D|
      ≤ keyGap W.env.E e mal q.input (ownDecision q.info F D) + keyGap W.env.E e mal q'.input (ownDecision q.info F D)
        + 10 / 2 ^ 31 := by
  have e1 : webStatsProb w net S mal W f q D
      = avg (fun β : Fin 3 → Fin p => viewMean W.env mal q.input (shared β) (ownDecision q.info F D)) := by
    unfold webStatsProb
    simp only [C161_sees hF hw hnet hq hh hS hdb ha D]
    rfl
  have e2 : webStatsProb w net S mal W f' q' D
      = avg (fun β : Fin 3 → Fin p => viewMean W.env mal q'.input (shared β) (ownDecision q.info F D)) := by
    unfold webStatsProb
    simp only [C161_sees hF hw hnet hq' hh hS hdb ha' D, hinfo]
    rfl
  rw [e1, e2]
  exact keys_alike hS mal hl (ownDecision_unit q.info F hD)

/-- C161 for any number of counts, before each of which the server proposes two and chooses how it answers. -/
theorem C161_session (w : Site) (W : World) (db : KeyDB) (info : DbInfo) (a0 a1 : String) (hw : w.complex = [a0, a1]) (mal : Bool)
    (e : U32) (fr : Nat → U32) (hh : ∀ t, (W.hash t).length = 32) (hS : Setup W mal e fr) (hdb : Loaded db)
    (S : History.Server WebAsk WebTactic (Res Msg × Bool)) (hD : IsTest S.decide)
    (hq : ∀ past, FairWeb w W db info a0 a1 mal (S.choose past)) (n : Nat) :
    History.telling (webCountSees w mal W) S n ≤ History.total (webCountSees w mal W) S (fun c D =>
      keyGap W.env.E e mal c.left.query.input (ownDecision c.left.query.info c.answer.reply D)
        + keyGap W.env.E e mal c.right.query.input (ownDecision c.left.query.info c.answer.reply D) + 10 / 2 ^ 31) n [] := by
  refine History.telling_le hD (FairWeb w W db info a0 a1 mal) hq ?_ n
  intro c D hc hD
  have h := C161_web w c.answer.net c.answer.order hc.orders W db info a0 a1 hw mal c.answer.reply hc.among c.left.form c.right.form
    c.left.query c.right.query hc.left hc.right e fr hh hS hdb _ _ hc.leftAsks hc.rightAsks hc.info hc.length D hD
  unfold webStatsProb at h
  rw [← avg_draw, ← avg_draw] at h
  exact h

/-! ### A concrete case -/

/-- A site with two predicate servers. -/
noncomputable def twoSite : Site := ⟨exLib Point.plainDpf, exGob, Query.dayTime, [], ["a", "b"], [], fun _ => none⟩

/-- The form for the number of keys with an algorithm. -/
def algoForm (algo : String) : Form := ⟨"/count/algo", ⟨ok (), fun _ => algo⟩, "", "0"⟩

/-- Two counts that meet the hypotheses: server 1 lies, and does not answer if its seed begins with an even byte. -/
example (D : Res Msg × Bool → ℚ) (hD : IsTest D) :
    |webStatsProb twoSite (secondLies (world parityCipher 5 10 10) exDB (fun m => if hurries m then err "no" else manyWords m))
        (fun m => if hurries m then overtaking else Client.order false) true (world parityCipher 5 10 10) (algoForm "RSA") exQuery D
      - webStatsProb twoSite (secondLies (world parityCipher 5 10 10) exDB (fun m => if hurries m then err "no" else manyWords m))
        (fun m => if hurries m then overtaking else Client.order false) true (world parityCipher 5 10 10) (algoForm "DSA") dsaQuery D|
      ≤ keyGap parityCipher 0 true exQuery.input (ownDecision exQuery.info (fun m => if hurries m then err "no" else manyWords m) D)
        + keyGap parityCipher 0 true dsaQuery.input (ownDecision exQuery.info (fun m => if hurries m then err "no" else manyWords m) D)
        + 10 / 2 ^ 31 :=
  C161_web twoSite _ _ hurries_orders.fair (world parityCipher 5 10 10) exDB _ "a" "b" rfl true
    (fun m => if hurries m then err "no" else manyWords m) (secondLies_among _ _ _) (algoForm "RSA") (algoForm "DSA") exQuery dsaQuery
    (.algo rfl rfl (by decide) rfl) (.algo rfl rfl (by decide) rfl) 0 (fun _ => 1) exHash_length
    (world_setup _ parityCipher_block 10 10 true) rfl _ _ (exQuery_asks _ _) (dsaQuery_asks _ _) rfl rfl D hD

/-- A server that proposes these two counts all the time. -/
noncomputable def webNosy (D : List (Res Msg × Bool) → ℚ) : History.Server WebAsk WebTactic (Res Msg × Bool) where
  choose _ := ⟨⟨algoForm "RSA", exQuery, fun ki => ki.algo.toNat = 1⟩, ⟨algoForm "DSA", dsaQuery, fun ki => ki.algo.toNat = 17⟩,
    ⟨secondLies (world parityCipher 5 10 10) exDB manyWords, fun _ => overtaking, manyWords⟩⟩
  decide := D

theorem rsa_asks (h : List Byte → List Byte) (d : Int → Time) : AsksWeb h d (algoForm "RSA").path (algoForm "RSA").form exQuery :=
  .algo rfl rfl (by decide) rfl

theorem dsa_asks (h : List Byte → List Byte) (d : Int → Time) : AsksWeb h d (algoForm "DSA").path (algoForm "DSA").form dsaQuery :=
  .algo rfl rfl (by decide) rfl

/-- The hypotheses of `C161_session` are met by this server in the place of server 1. -/
example (D : List (Res Msg × Bool) → ℚ) (hD : IsTest D) (n : Nat) :
    History.telling (webCountSees twoSite true (world parityCipher 5 10 10)) (webNosy D) n
      ≤ History.total (webCountSees twoSite true (world parityCipher 5 10 10)) (webNosy D) (fun c D =>
        keyGap parityCipher 0 true c.left.query.input (ownDecision c.left.query.info c.answer.reply D)
          + keyGap parityCipher 0 true c.right.query.input (ownDecision c.left.query.info c.answer.reply D) + 10 / 2 ^ 31) n [] :=
  C161_session twoSite (world parityCipher 5 10 10) exDB _ "a" "b" rfl true 0 (fun _ => 1) exHash_length
    (world_setup _ parityCipher_block 10 10 true) rfl (webNosy D) hD
    (fun _ => ⟨fun _ => overtaking_fair, secondLies_among _ _ _, rsa_asks _ _, dsa_asks _ _,
      exQuery_asks _ _, dsaQuery_asks _ _, rfl, rfl⟩) n

end Verif.Presence
