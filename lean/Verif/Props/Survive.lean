import Verif.Spec.Survive
import Verif.Lemmas.Survive
import Verif.Lemmas.Local
import Verif.Props.Uptime

/-! # C142: exactly which queries end a predicate server -/

namespace Verif.Predicate
open Res Verif.Field Verif.Field.Spec Verif.Fss Verif.Fss.Spec Verif.Query Verif.Predicate.Spec

/-- C142: whether a predicate server answers a query is decided by the options of the query, the lengths in its key and the
database: queries that ask for something implemented, with bounds that are not negative, and with a key that is large enough
for every key of the database that is looked at, are answered, with one or two values for each execution, and leave the scratch
space as they found it; every other query makes the server panic. -/
theorem C142_exact (hash : List Byte → List Byte) (hh : ∀ e, (hash e).length = 32) (env : Nat → Env)
    (hE : ∀ i, BlockCipher (env i).E) (hr : ∀ i, ∃ e, resample (env i).fresh (env i).fuel 0 modP = ok e) (now : Nat → Int)
    (sn : Byte) (n : Nat) (hn : n < 20) (db : KeyDB) (hdb : Loaded db) (buf : List Byte) (hbuf : BufferReady n buf) (m : Msg) :
    (Answerable n db m → ∃ a buf', answer hash env now sn db n buf m = ok (a, buf') ∧
      a.length = (if m.info.avg then 2 * n else n) ∧ BufferReady n buf') ∧
    (¬ Answerable n db m → (answer hash env now sn db n buf m).isCrash) := by
  by_cases hs : Supported m.info
  · have hsum := hs.1
    cases havg : m.info.avg with
    | false =>
      have hl := countLoop_decides hh hE hr hn hdb hs hbuf sn
      rw [answer_count havg hsum (hs.2.imp id And.right)]
      constructor
      · intro h
        obtain ⟨s, h1, h2, h3⟩ := hl.1 h
        rw [h1]
        exact ⟨_, _, rfl, by simpa using h2, h3⟩
      · intro h
        rw [isCrash_bind]
        exact Or.inl (hl.2 h)
    | true =>
      have hand : m.info.and = true := by
        rcases hs.2 with h | ⟨h, -⟩
        · exact h
        · rw [havg] at h; cases h
      have hl := avgLoop_decides hh hE hr hn hdb hs hbuf now sn
      rw [answer_avg havg hsum hand]
      constructor
      · intro h
        obtain ⟨s, u, h1, h2, h3, h4⟩ := hl.1 h
        rw [h1]
        refine ⟨_, _, rfl, ?_, h4⟩
        simp only [List.length_append, h2, h3, if_true]
        omega
      · intro h
        rw [isCrash_bind]
        exact Or.inl (hl.2 h)
  · refine ⟨fun h => absurd h.supported hs, fun _ => C55_unsupported_queries_crash hash env now sn db n buf m ?_⟩
    unfold Supported at hs
    cases h1 : m.info.sum with
    | true => exact Or.inl rfl
    | false =>
      rw [h1] at hs
      right
      cases h2 : m.info.and with
      | true => rw [h2] at hs; simp at hs
      | false =>
        rw [h2] at hs
        cases h3 : m.info.avg with
        | true => exact Or.inl ⟨rfl, rfl⟩
        | false =>
          rw [h3] at hs
          refine Or.inr ⟨rfl, rfl, ?_⟩
          simpa using hs

/-- C142 for the queries of the client library: such a query is answered exactly if its options are implemented, its bounds not
negative, and what it searches for has at least as many bits as what is taken from each key of the database that is looked
at. -/
theorem C142_client (env : Env) (hE : BlockCipher env.E) (fuel ex : Nat) (hex : 0 < ex) (rnd rnd' : Rand.Prg)
    (buf r1 r2 buf' : List Byte) (q : ClientFSS) (ms : List Msg) (st : State) (h1 : r1.length = 17) (h2 : r2.length = 16)
    (hq : query env fuel ex rnd buf r1 r2 q 2 = ok (ms, st, rnd', buf')) (db : KeyDB) (m : Msg) (hm : m ∈ ms) :
    Answerable ex db m ↔ Supported q.info ∧
      (AboutEmail q.info → db.keys ≠ [] → 0 ≤ q.info.fromStart ∧ (q.info.fromStart = 0 → 0 ≤ q.info.fromEnd)) ∧
      (q.info.and = false → q.info.target = 1 → ∀ ki ∈ db.keys, ∃ b, ki.creation.bin = ok b) ∧
      ∀ ki ∈ db.keys, ∀ d, depth q.info ki = some d → d ≤ q.input.length := by
  obtain ⟨hi, hc, h18, hf⟩ := query_shape hE hex h1 h2 hq m hm
  constructor
  · rintro ⟨a, b, c, d⟩
    rw [hi] at a b c d
    exact ⟨a, b, c, fun ki hki e he => hc ▸ (d ki hki e he).levels⟩
  · rintro ⟨a, b, c, d⟩
    refine ⟨by rw [hi]; exact a, by rw [hi]; exact b, by rw [hi]; exact c, ?_⟩
    rw [hi]
    intro ki hki e he
    exact ⟨by rw [hc]; exact d ki hki e he, fun w hw => by rw [h18 w (List.mem_of_mem_take hw)], by rw [hf]⟩

/-- C142: the counting queries that the client builds for its user, from texts that are long enough, are answered by every
server with this database. -/
theorem C142_asked (env : Env) (hE : BlockCipher env.E) (fuel ex : Nat) (hex : 0 < ex) (rnd rnd' : Rand.Prg)
    (buf r1 r2 buf' : List Byte) (q : ClientFSS) (ms : List Msg) (st : State) (h1 : r1.length = 17) (h2 : r2.length = 16)
    (hq : query env fuel ex rnd buf r1 r2 q 2 = ok (ms, st, rnd', buf')) (hash : List Byte → List Byte)
    (hh : ∀ e, (hash e).length = 32) (mk : Int → Time) (db : KeyDB) (P : KeyInfo → Prop) (ha : Asks hash mk db q P) (m : Msg)
    (hm : m ∈ ms) : Answerable ex db m := by
  obtain ⟨havg, hsum, ht, -, f, hsel, hlen, -⟩ := asks_selectors hh ha
  have hs : Supported q.info := ⟨hsum, ht.imp id fun h => ⟨havg, h⟩⟩
  obtain ⟨hi, hc, h18, hf⟩ := query_shape hE hex h1 h2 hq m hm
  rw [answerable_iff (by rw [hi]; exact hs)]
  intro ki hki
  unfold Fine
  rw [hi]
  have hk := keyId_decides hh hs ki
  have hR : Readable q.info ki := by
    by_contra hc
    have := hk.2 hc
    rw [hsel ki hki] at this
    simp at this
  refine ⟨hR, fun d hd => ?_⟩
  obtain ⟨o, ho, hd'⟩ := hk.1 hR
  rw [hsel ki hki] at ho
  cases ho
  rw [hd] at hd'
  obtain ⟨id, hid, rfl⟩ := Option.map_eq_some_iff.mp hd'
  have hl := hlen ki hki id hid
  exact ⟨by omega, fun w hw => by rw [h18 w (List.mem_of_mem_take hw)], by rw [hf]⟩

/-- C142: so are the queries for averages. -/
theorem C142_asked_average (env : Env) (hE : BlockCipher env.E) (fuel ex : Nat) (hex : 0 < ex) (rnd rnd' : Rand.Prg)
    (buf r1 r2 buf' : List Byte) (q : ClientFSS) (ms : List Msg) (st : State) (h1 : r1.length = 17) (h2 : r2.length = 16)
    (hq : query env fuel ex rnd buf r1 r2 q 2 = ok (ms, st, rnd', buf')) (hash : List Byte → List Byte)
    (hh : ∀ e, (hash e).length = 32) (i : Info) (text : List Byte) (hand : i.and = true) (havg : i.avg = true)
    (hsum : i.sum = false) (hv : EmailValid i text) (hb : toEmailClientFSS hash i text = ok q) (db : KeyDB) (m : Msg)
    (hm : m ∈ ms) : Answerable ex db m := by
  unfold toEmailClientFSS at hb
  rw [idForEmail_sel hh hv] at hb
  obtain ⟨id, hid⟩ := emailSel_valid (hash := hash) hv
  have hl := emailSel_length hh hv hid
  simp only [ok_bind, hid, ok.injEq, orNil, Option.getD_some] at hb
  subst hb
  rw [C142_client env hE fuel ex hex rnd rnd' buf r1 r2 buf' _ ms st h1 h2 hq db m hm]
  refine ⟨⟨hsum, Or.inl hand⟩, fun _ _ => ⟨hv.1, fun _ => hv.2.2.1⟩, fun h => absurd (hand.symm.trans h) (by simp), ?_⟩
  intro ki _ d hd
  unfold depth emailDepth at hd
  rw [if_pos hand, if_pos havg] at hd
  show d ≤ id.length
  rw [hl]
  unfold emailBits
  split_ifs at hd ⊢ <;> simp_all

/-- A database of two keys, the first with a short address. -/
def survivors : KeyDB := ⟨2, [⟨[97], ⟨737000, ok [1]⟩, 1⟩, ⟨[97, 98, 99], ⟨737000, ok [1]⟩, 17⟩]⟩

/-- A query for addresses that begin with two characters, with a key of so many levels. -/
def levelsQuery (levels : Nat) : Msg :=
  ⟨⟨0, 2, 0, false, false, false⟩, ⟨[], 0, List.replicate levels (List.replicate 18 0), [7]⟩⟩

theorem levels_answerable : Answerable 1 survivors (levelsQuery 16) := by
  refine ⟨⟨rfl, Or.inr ⟨rfl, by decide⟩⟩, fun _ _ => ⟨by decide, by decide⟩, fun _ h => absurd h (by decide), ?_⟩
  intro ki hki d hd
  have : d = 16 := by
    simp only [survivors, List.mem_cons, List.not_mem_nil, or_false] at hki
    rcases hki with rfl | rfl
    · simp [depth, emailDepth, levelsQuery] at hd
    · simpa [depth, emailDepth, levelsQuery] using hd.symm
  subst this
  exact ⟨by simp [levelsQuery], by simp [levelsQuery], by simp [levelsQuery]⟩

theorem levels_short : ¬ Answerable 1 survivors (levelsQuery 15) := by
  intro h
  have := (h.covers ⟨[97, 98, 99], ⟨737000, ok [1]⟩, 17⟩ (by simp [survivors]) 16 (by simp [depth, emailDepth, levelsQuery])).levels
  simp [levelsQuery] at this

/-- An environment for the example. -/
def stillEnv : Env := ⟨parityCipher, fun _ => 0, 1⟩

theorem stillEnv_refills : ∃ e, resample stillEnv.fresh stillEnv.fuel 0 modP = ok e := ⟨0, by
  show resample (fun _ => 0) 1 0 modP = ok 0
  unfold resample
  rw [if_pos rfl]
  unfold resample
  rw [if_neg (by decide)]⟩

/-- A query whose key has 16 levels is answered, one with 15 ends the server. -/
example : (∃ a b, answer exHash (fun _ => stillEnv) (fun _ => 0) 0 survivors 1 (initFss 1) (levelsQuery 16) = ok (a, b) ∧
      a.length = 1) ∧
    ¬ ∃ r, answer exHash (fun _ => stillEnv) (fun _ => 0) 0 survivors 1 (initFss 1) (levelsQuery 15) = ok r := by
  have h := C142_exact exHash exHash_length (fun _ => stillEnv) (fun _ => parityCipher_block) (fun _ => stillEnv_refills)
    (fun _ => 0) 0 1 (by omega) survivors rfl (initFss 1) (initFss_ok 1)
  have h16 := (h (levelsQuery 16)).1 levels_answerable
  have h15 : ∀ m, ¬ Answerable 1 survivors m →
      ¬ ∃ r, answer exHash (fun _ => stillEnv) (fun _ => 0) 0 survivors 1 (initFss 1) m = ok r := by
    rintro m hm ⟨r, hr⟩
    have := (h m).2 hm
    rw [hr] at this
    simp at this
  refine ⟨?_, h15 _ levels_short⟩
  obtain ⟨a, b, h1, h2, -⟩ := h16
  exact ⟨a, b, h1, by rw [h2]; rfl⟩

/-- The messages of the query for RSA keys are answered whatever the database. -/
example : ∃ ms st rnd' buf', query (world parityCipher 1 0 0).env 2 1 (world parityCipher 1 0 0).rnd (initFss 1)
      (List.replicate 17 3) (List.replicate 16 4) exQuery 2 = ok (ms, st, rnd', buf') ∧
    ∀ m ∈ ms, Answerable 1 exDB m ∧ Answerable 1 survivors m := by
  obtain ⟨⟨ms, st, rnd', buf'⟩, hq⟩ : ∃ x, query (world parityCipher 1 0 0).env 2 1 (world parityCipher 1 0 0).rnd (initFss 1)
      (List.replicate 17 3) (List.replicate 16 4) exQuery 2 = ok x := by
    have hR := world_ready1 parityCipher parityCipher_block 0 0
    obtain ⟨r, hr, -⟩ := C21_count_unauthenticated (world parityCipher 1 0 0) dayTime exDB exQuery _ exHash_length hR rfl
      (exQuery_asks _ _)
    unfold World.run at hr
    obtain ⟨x, hx, -⟩ := bind_eq_ok.mp hr
    exact ⟨x, hx⟩
  refine ⟨ms, st, rnd', buf', hq, fun m hm => ⟨?_, ?_⟩⟩
  · exact C142_asked _ parityCipher_block 2 1 (by omega) _ rnd' _ _ _ buf' exQuery ms st (by simp) (by simp) hq exHash
      exHash_length dayTime exDB _ (exQuery_asks _ _) m hm
  · exact C142_asked _ parityCipher_block 2 1 (by omega) _ rnd' _ _ _ buf' exQuery ms st (by simp) (by simp) hq exHash
      exHash_length dayTime survivors _ (exQuery_asks _ _) m hm

end Verif.Predicate

namespace Verif.Deploy
open Res Verif.Cmd Verif.Pgp Verif.Pgp.Spec Verif.Query Verif.Client Verif.Deploy.Spec Verif.Predicate.Spec

/-- What a predicate server has loaded. -/
theorem predicate_loaded {M : Machine} (hsort : ∀ l, (M.sort l).length = l.length) {config : List (List Char × Server)}
    {f : ServerFlags} {ex : Nat} (hf : f.scheme = "complexPIR" ∧ ex = 1 ∨ f.scheme = "complexVPIR" ∧ ex = 5) {R : Running}
    (h : serverMain M config f = ok R) :
    ∃ keys infos, loadKeys M f.files = ok keys ∧
      generateRealKeyDB (getKeyInfoFromPacket M.readRing M.timeOf M.algoOf) M.sort keys = ok infos ∧
      Loaded ⟨keys.length, infos⟩ ∧ R.answer = predicateAnswer M (BitVec.ofInt 8 f.id) ex ⟨keys.length, infos⟩ := by
  have hf' : f.scheme = "complexPIR" ∨ f.scheme = "complexVPIR" := hf.imp And.left And.left
  unfold serverMain at h
  simp only [bind_eq_ok] at h
  obtain ⟨addrs, -, addr, -, r, hr, _, -, _, -, h⟩ := h
  simp only [ok.injEq] at h
  subst h
  unfold loadServer at hr
  rw [if_neg (by rcases hf' with h | h <;> rw [h] <;> decide), if_neg (by rcases hf' with h | h <;> rw [h] <;> decide),
    if_pos hf'] at hr
  simp only [bind_eq_ok] at hr
  obtain ⟨keys, hk, infos, hi, hr⟩ := hr
  simp only [ok.injEq] at hr
  have hk' : loadKeys M f.files = ok keys := by
    cases hl : loadKeys M f.files with
    | ok x => rw [hl] at hk; exact hk
    | err m => rw [hl] at hk; cases hk
    | crash m => rw [hl] at hk; cases hk
  refine ⟨keys, infos, hk', hi, ?_, ?_⟩
  · have := (Verif.Local.mapM_forall hi).1
    show keys.length = infos.length
    rw [this, hsort]
  · rw [← hr]
    rcases hf with ⟨h, rfl⟩ | ⟨h, rfl⟩
    · simp only [h, if_true]
    · simp only [h]
      rfl

/-- C142 for the server program under any number of concurrent clients: a predicate server that has not been shut down has
ended only if it was sent a query that can be decoded and is not answerable, and has ended when it comes to rest after such a
query; if there is none, then at rest every call that was not cancelled has returned an answer, or the error of the decoder if
the query could not be decoded. -/
theorem C142_deployed (M : Machine) (hh : ∀ e, (M.queryHash e).length = 32) (hE : ∀ i, Fss.Spec.BlockCipher (M.env i).E)
    (hr : ∀ i, ∃ e, Field.resample (M.env i).fresh (M.env i).fuel 0 Field.modP = ok e)
    (hsort : ∀ l, (M.sort l).length = l.length) (hu : ∀ q, ¬ (M.ungob q).isCrash)
    (config : List (List Char × Server)) (f : ServerFlags) (ex : Nat)
    (hf : f.scheme = "complexPIR" ∧ ex = 1 ∨ f.scheme = "complexVPIR" ∧ ex = 5) (hbuf : Fss.Spec.BufferReady ex M.buf)
    (R : Running) (h : serverMain M config f = ok R) :
    ∃ keys infos, loadKeys M f.files = ok keys ∧
      generateRealKeyDB (getKeyInfoFromPacket M.readRing M.timeOf M.algoOf) M.sort keys = ok infos ∧
      ∀ s, Rpc.Reach R.answer s → s.closed = false →
        (s.crashed = true → ∃ c ∈ s.calls, ∃ m, M.ungob c.query = ok m ∧ ¬ Answerable ex ⟨keys.length, infos⟩ m) ∧
        ((¬ ∃ s', Rpc.Sys R.answer s s') →
          ((∃ c ∈ s.calls, ∃ m, M.ungob c.query = ok m ∧ ¬ Answerable ex ⟨keys.length, infos⟩ m) → s.crashed = true) ∧
          ((∀ c ∈ s.calls, ∀ m, M.ungob c.query = ok m → Answerable ex ⟨keys.length, infos⟩ m) →
            ∀ c ∈ s.calls, c.cancelled = false →
              (∃ m a, M.ungob c.query = ok m ∧ c.status = .returned (.answer a)) ∨
              ∃ e, M.ungob c.query = err e ∧ c.status = .returned (.error e))) := by
  obtain ⟨keys, infos, hk, hi, hdb, hans⟩ := predicate_loaded hsort hf h
  refine ⟨keys, infos, hk, hi, ?_⟩
  have hex : ex < 20 := by rcases hf with ⟨-, rfl⟩ | ⟨-, rfl⟩ <;> omega
  have hgood : ∀ q m, M.ungob q = ok m → Answerable ex ⟨keys.length, infos⟩ m → ∃ a, R.answer q = ok a := by
    intro q m hm ha
    obtain ⟨a, b, h1, -⟩ := (Predicate.C142_exact M.queryHash hh M.env hE hr M.now (BitVec.ofInt 8 f.id) ex hex _ hdb M.buf hbuf
      m).1 ha
    obtain ⟨w, hw, -⟩ := Predicate.words_roundtrip a
    rw [hans]
    unfold predicateAnswer
    rw [hm, ok_bind, h1, ok_bind]
    exact ⟨w, hw⟩
  have hbad : ∀ q m, M.ungob q = ok m → ¬ Answerable ex ⟨keys.length, infos⟩ m → (R.answer q).isCrash := by
    intro q m hm ha
    have h1 := (Predicate.C142_exact M.queryHash hh M.env hE hr M.now (BitVec.ofInt 8 f.id) ex hex _ hdb M.buf hbuf m).2 ha
    rw [hans]
    unfold predicateAnswer
    rw [hm, ok_bind, isCrash_bind]
    exact Or.inl h1
  have herr : ∀ q e, M.ungob q = err e → R.answer q = err e := by
    intro q e he
    rw [hans]
    unfold predicateAnswer
    rw [he]
    rfl
  intro s hs hcl
  have hA : s.crashed = true → ∃ c ∈ s.calls, ∃ m, M.ungob c.query = ok m ∧ ¬ Answerable ex ⟨keys.length, infos⟩ m := by
    intro hcr
    by_contra hc
    push Not at hc
    have := Rpc.C76_stays_up hs hcl (by
      intro c hcc
      cases hm : M.ungob c.query with
      | ok m =>
        obtain ⟨a, ha⟩ := hgood _ m hm (hc c hcc m hm)
        simp [ha]
      | err e => simp [herr _ e hm]
      | crash e => exact absurd (by rw [hm]; simp) (hu c.query))
    rw [hcr] at this
    cases this
  refine ⟨hA, fun hrest => ⟨?_, ?_⟩⟩
  · rintro ⟨c, hc, m, hm, hna⟩
    obtain ⟨i, hi, hic⟩ := List.getElem_of_mem hc
    exact Rpc.C76_crashing_query_is_fatal hs hcl hrest i c (by rw [List.getElem?_eq_getElem hi, hic]) (hbad _ m hm hna)
  · intro hall c hc hcan
    have hcr : s.crashed = false := by
      by_contra hcc
      obtain ⟨c, hc, m, hm, hna⟩ := hA (by simpa using hcc)
      exact hna (hall c hc m hm)
    obtain ⟨i, hi, hic⟩ := List.getElem_of_mem hc
    rcases Rpc.C44_all_return hs hcr hcl hrest i c (by rw [List.getElem?_eq_getElem hi, hic]) with ⟨a, h1, h2⟩ | ⟨e, h1, h2⟩ | ⟨h1, -⟩
    · cases hm : M.ungob c.query with
      | ok m => exact Or.inl ⟨m, a, rfl, h2⟩
      | err e => rw [herr _ e hm] at h1; cases h1
      | crash e => exact absurd (by rw [hm]; simp) (hu c.query)
    · cases hm : M.ungob c.query with
      | ok m =>
        obtain ⟨a, ha⟩ := hgood _ m hm (hall c hc m hm)
        rw [ha] at h1; cases h1
      | err e' =>
        rw [herr _ e' hm] at h1
        cases h1
        exact Or.inr ⟨_, rfl, h2⟩
      | crash e => exact absurd (by rw [hm]; simp) (hu c.query)
    · rw [hcan] at h1; cases h1

/-- A machine that decodes one query, which asks for a sum. -/
def survivor : Machine := { sumMachine with
  queryHash := Predicate.exHash
  env := fun _ => Predicate.stillEnv
  buf := Fss.initFss 5 }

/-- The hypotheses of `C142_deployed`: queries that cannot be decoded do no harm, the one that can be decoded ends the
server. -/
example : ∃ R, serverMain survivor (exServers 3) ⟨1, 2, "complexVPIR"⟩ = ok R ∧
    ∀ s, Rpc.Reach R.answer s → s.closed = false →
      ((∀ c ∈ s.calls, c.query ≠ []) → s.crashed = false) ∧
      ((¬ ∃ s', Rpc.Sys R.answer s s') → (∃ c ∈ s.calls, c.query = []) → s.crashed = true) := by
  have hi : Installed (exLib Point.plainDpf) exFiles survivor :=
    ⟨rfl, rfl, rfl, sortDesc_sorts, reversed_fair, List.reverse_perm _, fun _ => rfl⟩
  obtain ⟨r, hr⟩ : ∃ r, loadServer survivor ⟨(1 : Nat), (2 : Nat), "complexVPIR"⟩ = ok r := by
    obtain ⟨infos, hinfos, -⟩ := Point.mapM_ok (l := survivor.sort twenty)
      (f := fun k => match getKeyInfoFromPacket survivor.readRing survivor.timeOf survivor.algoOf k.packet with
        | ok x => ok x
        | err m => crash m
        | crash m => crash m) (by
        intro x hx
        have hx : x ∈ twenty := (sortDesc_sorts _).1.mem_iff.mp hx
        have hp := twenty_parses [x] (by simp) (by simpa using hx)
        simp only [packets, List.flatMap_cons, List.flatMap_nil, List.append_nil, List.map_cons, List.map_nil] at hp
        unfold getKeyInfoFromPacket
        rw [show survivor.readRing = ringOfBytes from rfl, hp]
        exact ⟨_, rfl⟩)
    have hg : generateRealKeyDB (getKeyInfoFromPacket survivor.readRing survivor.timeOf survivor.algoOf) survivor.sort
        twenty = ok infos := hinfos
    unfold loadServer
    dsimp only
    rw [loadKeys_eq exFiles_inOrder hi (by decide), if_neg (by decide), if_neg (by decide), if_pos (Or.inr rfl), orFatal_ok,
      ok_bind, exFiles_keys, hg, ok_bind]
    exact ⟨_, rfl⟩
  have hR := serverMain_eq hi exServers_config.1 (List.Perm.refl _) (i := 1) (by decide) (by decide) _ _ r hr
  refine ⟨_, hR, ?_⟩
  generalize (⟨_, r.1, r.2⟩ : Running) = R at hR
  have hsum : survivor.ungob [] = ok ⟨⟨0, 0, 0, false, false, true⟩, ⟨[], 0, [], []⟩⟩ := rfl
  have hnot : ∀ q m, survivor.ungob q = ok m → q = [] := by
    intro q m hm
    by_contra hq
    have : survivor.ungob q = err "not a query" := if_neg hq
    rw [this] at hm
    cases hm
  obtain ⟨keys, infos, -, -, h⟩ := C142_deployed survivor Predicate.exHash_length (fun _ => Fss.parityCipher_block)
    (fun _ => Predicate.stillEnv_refills) (fun l => (sortDesc_sorts l).1.length_eq) (by
      intro q
      by_cases hq : q = []
      · subst hq; rw [hsum]; simp
      · have : survivor.ungob q = err "not a query" := if_neg hq
        rw [this]; simp) (exServers 3) ⟨1, 2, "complexVPIR"⟩ 5 (Or.inr ⟨rfl, rfl⟩) (Fss.initFss_ok 5) R hR
  intro s hs hcl
  obtain ⟨h1, h2⟩ := h s hs hcl
  constructor
  · intro hq
    by_contra hc
    obtain ⟨c, hcc, m, hm, -⟩ := h1 (by simpa using hc)
    exact hq c hcc (hnot _ m hm)
  · rintro hrest ⟨c, hcc, hq⟩
    refine (h2 hrest).1 ⟨c, hcc, _, by rw [hq]; exact hsum, fun ha => ?_⟩
    have := ha.supported.1
    simp at this

end Verif.Deploy
