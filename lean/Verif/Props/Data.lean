import Verif.Lemmas.Data
import Verif.Props.Deploy
import Mathlib.Data.List.Infix

/-! # Properties of the program that prepares the key files

C71: from the dump on disk to the keys that a server loads. C72: interrupted and repeated runs. C73: which files are read as
the dump. -/

namespace Verif.Data
open Res Verif.Cmd Verif.Pgp Verif.Pgp.Spec Verif.Deploy.Spec Spec

/-! ### C73: the files of the dump -/

theorem isDigit_iff (c : Char) : isDigit c = true ↔ '0' ≤ c ∧ c ≤ '9' := by unfold isDigit; simp

theorem matchHere_iff (s : List Char) : matchHere s = true ↔ ∃ ds b : List Char, ds.length = 4 ∧
    (∀ c ∈ ds, '0' ≤ c ∧ c ≤ '9') ∧ s = "sks-dump-".toList ++ ds ++ ".pgp".toList ++ b := by
  unfold matchHere
  constructor
  · intro h
    split at h
    · rename_i a b c e rest he
      rw [List.isPrefixOf?_eq_some_iff_append_eq] at he
      simp only [Bool.and_eq_true, isDigit_iff, List.isPrefixOf_iff_prefix] at h
      obtain ⟨⟨⟨⟨h1, h2⟩, h3⟩, h4⟩, t, rfl⟩ := h
      refine ⟨[a, b, c, e], t, rfl, ?_, by rw [← he]; simp⟩
      intro x hx
      simp only [List.mem_cons, List.not_mem_nil, or_false] at hx
      rcases hx with rfl | rfl | rfl | rfl <;> assumption
    · cases h
  · rintro ⟨ds, b, hl, hd, rfl⟩
    match ds, hl with
    | [w, x, y, z], _ =>
      have he : "sks-dump-".toList.isPrefixOf? ("sks-dump-".toList ++ [w, x, y, z] ++ ".pgp".toList ++ b) =
          some (w :: x :: y :: z :: (".pgp".toList ++ b)) := by
        rw [List.isPrefixOf?_eq_some_iff_append_eq]; simp
      rw [he]
      simp only [Bool.and_eq_true, isDigit_iff, List.isPrefixOf_iff_prefix]
      exact ⟨⟨⟨⟨hd w (by simp), hd x (by simp)⟩, hd y (by simp)⟩, hd z (by simp)⟩, List.prefix_append _ _⟩

theorem matchAnywhere_iff (s : List Char) : matchAnywhere s = true ↔ ContainsDumpName s := by
  unfold matchAnywhere ContainsDumpName
  rw [List.any_eq_true]
  constructor
  · rintro ⟨t, ht, hm⟩
    obtain ⟨ds, b, h1, h2, rfl⟩ := (matchHere_iff t).mp hm
    obtain ⟨a, rfl⟩ := (List.mem_tails _ _).mp ht
    exact ⟨a, ds, b, h1, h2, by simp⟩
  · rintro ⟨a, ds, b, h1, h2, rfl⟩
    refine ⟨"sks-dump-".toList ++ ds ++ ".pgp".toList ++ b, (List.mem_tails _ _).mpr ⟨a, by simp⟩, (matchHere_iff _).mpr
      ⟨ds, b, h1, h2, rfl⟩⟩

/-- C73 as claimed: the files read as the dump are those named `sks-dump-`, a number, `.pgp`. -/
def C73_Statement : Prop :=
  ∀ (d : Disk) (dir : Path), Proper d → entry d dir = some .dir → ∃ files, getSksOriginalDumpFiles d dir = ok files ∧
    ∀ p, p ∈ files ↔ ∃ n, p = join dir n ∧ IsDumpName n ∧ (entry d p).isSome

/-- C73: the files read are those whose name contains `sks-dump-`, four digits, `.pgp`, each once and in the order of the
names. -/
theorem C73_selected (d : Disk) (dir : Path) (hd : Proper d) (hdir : entry d dir = some .dir) :
    ∃ names : List Path, getSksOriginalDumpFiles d dir = ok (names.map (join dir)) ∧ names.Pairwise (· < ·) ∧
      ∀ n, n ∈ names ↔ IsName n ∧ ContainsDumpName n ∧ (entry d (join dir n)).isSome := by
  obtain ⟨names, h1, h2, h3⟩ := readDir_spec hd hdir
  refine ⟨names.filter matchAnywhere, ?_, h2.filter _, ?_⟩
  · unfold getSksOriginalDumpFiles
    rw [h1, ok_bind]
  · intro n
    rw [List.mem_filter, h3, matchAnywhere_iff]
    tauto

/-- C73: a name with four digits and nothing before or after is selected; a name with another number of digits is not. Missing
from the full claim: files with a longer name, which are selected too, and dumps of more than ten thousand files. -/
theorem C73_four_digits_partial (ds : List Char) (hd : ∀ c ∈ ds, '0' ≤ c ∧ c ≤ '9') :
    ContainsDumpName ("sks-dump-".toList ++ ds ++ ".pgp".toList) ↔ ds.length = 4 := by
  have key : ∀ (ds es b : List Char), (∀ c ∈ ds, '0' ≤ c ∧ c ≤ '9') → (∀ c ∈ es, '0' ≤ c ∧ c ≤ '9') →
      ds ++ '.' :: b = es ++ ".pgp".toList → ds.length = es.length := by
    intro ds
    induction ds with
    | nil =>
      intro es b _ he h
      cases es with
      | nil => rfl
      | cons e es =>
        simp only [List.nil_append, List.cons_append, List.cons.injEq] at h
        exact absurd (he e (by simp)) (by rw [← h.1]; decide)
    | cons x ds ih =>
      intro es b hds he h
      cases es with
      | nil =>
        have h' : x :: (ds ++ '.' :: b) = '.' :: "pgp".toList := h
        simp only [List.cons.injEq] at h'
        exact absurd (hds x (by simp)) (by rw [h'.1]; decide)
      | cons e es =>
        simp only [List.cons_append, List.cons.injEq] at h
        rw [List.length_cons, List.length_cons,
          ih es b (fun c hc => hds c (List.mem_cons_of_mem _ hc)) (fun c hc => he c (List.mem_cons_of_mem _ hc)) h.2]
  constructor
  · rintro ⟨a, es, b, h1, h2, h⟩
    -- the dash after `sks` can only be where it is
    have ha : a = [] := by
      by_contra hne
      have hcount := congrArg (List.count 's') h
      have hc0 : ∀ l : List Char, (∀ c ∈ l, '0' ≤ c ∧ c ≤ '9') → List.count 's' l = 0 := by
        intro l hl
        rw [List.count_eq_zero]
        intro hs
        exact absurd (hl _ hs) (by decide)
      cases a with
      | nil => exact hne rfl
      | cons x a =>
        have hx : x = 's' := by
          have := congrArg List.head? h
          simpa using this.symm
        subst hx
        simp only [List.count_append, List.cons_append, List.count_cons_self, hc0 ds hd, hc0 es h2] at hcount
        rw [show List.count 's' "sks-dump-".toList = 2 by decide, show List.count 's' ".pgp".toList = 0 by decide] at hcount
        omega
    subst ha
    rw [List.nil_append, List.append_assoc, List.append_assoc, List.append_assoc, List.append_cancel_left_eq] at h
    rw [← h1]
    exact (key es ds ("pgp".toList ++ b) h2 hd (by rw [h]; rfl)).symm
  · intro h
    exact ⟨[], ds, [], h, hd, by simp⟩

/-- The disk of the refutations: one directory, one file in it. -/
def oneFile (dir name : Path) (bs : List Byte) : Disk := ⟨[(dir, .dir), (join dir name, .file bs)]⟩

/-- C73 as claimed is false: the signature of a dump file is read as a key ring. -/
theorem C73_refuted : ¬ C73_Statement := by
  intro h
  obtain ⟨files, h1, h2⟩ := h (oneFile "d".toList "sks-dump-0000.pgp.asc".toList []) "d".toList
    (by unfold Proper; decide) (by decide)
  obtain ⟨names, h3, -, h4⟩ := C73_selected (oneFile "d".toList "sks-dump-0000.pgp.asc".toList []) "d".toList
    (by unfold Proper; decide) (by decide)
  have hin : "sks-dump-0000.pgp.asc".toList ∈ names :=
    (h4 _).mpr ⟨⟨by decide, by decide⟩, ⟨[], "0000".toList, ".asc".toList, by decide, by decide, by decide⟩, by decide⟩
  have he : files = names.map (join "d".toList) := by
    have := h1.symm.trans h3
    simpa using this
  subst he
  obtain ⟨n, hn, ⟨ds, hne, hds, hdn⟩, -⟩ := (h2 _).mp (List.mem_map.mpr ⟨_, hin, rfl⟩)
  have hn' : "sks-dump-0000.pgp.asc".toList = n := by
    have : join "d".toList "sks-dump-0000.pgp.asc".toList = join "d".toList n := hn
    unfold join at this
    simpa using this
  rw [hdn] at hn'
  have := congrArg List.reverse hn'
  simp only [List.reverse_append] at this
  have h5 := congrArg List.head? this
  simp at h5

/-- C73: of a dump with more than ten thousand files, the further files are left out in silence. -/
example : ¬ ContainsDumpName "sks-dump-10000.pgp".toList := by
  have := C73_four_digits_partial "10000".toList (by decide)
  rw [show "sks-dump-".toList ++ "10000".toList ++ ".pgp".toList = "sks-dump-10000.pgp".toList by decide] at this
  rw [this]
  decide

/-- A file in a directory is selected. -/
example : getSksOriginalDumpFiles (oneFile "d".toList "sks-dump-0007.pgp".toList []) "d".toList =
    ok ["d/sks-dump-0007.pgp".toList] := by
  have h : (oneFile "d".toList "sks-dump-0007.pgp".toList []).nodes.filterMap (fun e => nameIn "d".toList e.1) =
      ["sks-dump-0007.pgp".toList] := by decide
  have hm : mget (oneFile "d".toList "sks-dump-0007.pgp".toList []).nodes "d".toList = some .dir := by decide
  unfold getSksOriginalDumpFiles readDir
  rw [hm, h]
  simp only [List.mergeSort_singleton, ok_bind]
  decide

/-! ### C71: from the dump to the keys that a server loads -/

theorem foldl_analyze (L : Lib) (d : Disk) (dir : Path) (dump : List (Path × List Entity)) (h : ∀ x ∈ dump, ∃ bs,
    entry d (join dir x.1) = some (.file bs) ∧ L.readRing bs = ok x.2) :
    ((dump.map (·.1)).map (join dir)).map (fun f => do
      let bs ← readFile d f
      L.readRing bs) = (dump.map (·.2)).map ok := by
  rw [List.map_map, List.map_map, List.map_map]
  apply List.map_congr_left
  intro x hx
  obtain ⟨bs, h1, h2⟩ := h x hx
  have : readFile d (join dir x.1) = ok bs := by
    unfold readFile
    unfold entry at h1
    rw [h1]
  simp only [Function.comp, this, ok_bind, h2]

theorem dump_names {L : Lib} {d : Disk} {dir : Path} {dump : List (Path × List Entity)} (hd : Proper d)
    (hdir : entry d dir = some .dir) (h : DumpIs L d dir ContainsDumpName dump) :
    getSksOriginalDumpFiles d dir = ok ((dump.map (·.1)).map (join dir)) := by
  obtain ⟨names, h1, h2, h3⟩ := C73_selected d dir hd hdir
  have hs : (dump.map (·.1)).Pairwise (· < ·) := by rw [List.pairwise_map]; exact h.sorted
  have hn : ∀ l : List Path, l.Pairwise (· < ·) → l.Nodup := by
    intro l hl
    rw [List.nodup_iff_pairwise_ne]
    exact hl.imp (fun h e => by rw [e] at h; exact List.lt_irrefl _ h)
  have hperm : names.Perm (dump.map (·.1)) := by
    rw [List.perm_ext_iff_of_nodup (hn _ h2) (hn _ hs)]
    intro n
    rw [h3]
    constructor
    · rintro ⟨ha, hb, hc⟩
      obtain ⟨es, he⟩ := h.all n ha hb hc
      exact List.mem_map.mpr ⟨_, he, rfl⟩
    · intro hm
      obtain ⟨⟨n', es⟩, he, rfl⟩ := List.mem_map.mp hm
      obtain ⟨ha, hb, bs, hc, -⟩ := (h.mem _ _).mp he
      exact ⟨ha, hb, by rw [hc]; rfl⟩
  have : names = dump.map (·.1) := by
    refine List.Perm.eq_of_pairwise ?_ h2 hs hperm
    intro a b _ _ h1 h2
    exact absurd (List.lt_trans h1 h2) (List.lt_irrefl _)
  rw [h1, this]

theorem parse_eq {L : Lib} {d : Disk} (hd : Proper d) {D : Path} {dump : List (Path × List Entity)}
    (hD : entry d D = some .dir) (hdump : DumpIs L d D ContainsDumpName dump) {m : List (Str × Entity)}
    (hm : analyzeKeyDump L.lower ((dump.map (·.2)).map ok) = ok m) (O : Path) :
    parseSksDump L d D O = writeKeysOnDisk L d O m := by
  unfold parseSksDump
  rw [dump_names hd hD hdump, ok_bind, foldl_analyze L d D dump, hm]
  intro x hx
  obtain ⟨-, -, bs, h1, h2⟩ := (hdump.mem x.1 x.2).mp hx
  exact ⟨bs, h1, h2⟩

/-- What `parseDump` does: it ends without error, and writes the keys of the dump. -/
theorem parse_run (L : Lib) (ser : Entity → List Byte) (hser : ∀ e, L.serialize e = ok (ser e)) (horder : Enumerates L.order)
    (d : Disk) (hd : Proper d) (D O : Path) (dump : List (Path × List Entity)) (hD : entry d D = some .dir)
    (hO : entry d O = some .dir) (hfull : entry d (join O fullName) ≠ some .dir)
    (hdump : DumpIs L d D ContainsDumpName dump) :
    ∃ keys, KeysOf L.lower ser (dump.map (·.2)) keys ∧ (parseSksDump L d D O).2 = ok () ∧
      Wrote L (join O fullName) keys d (applyAll d (parseSksDump L d D O).1) ∧
      (∀ n, Wrote L (join O fullName) (keys.take n) d (applyAll d ((parseSksDump L d D O).1.take (n + 1)))) := by
  obtain ⟨m, hm, hmn, hme⟩ := C17_newest L.lower (dump.map (·.2))
  have hrun := parse_eq hd hD hdump hm O
  obtain ⟨h1, h2, h3⟩ := write_run L ser hser d O m ((canCreate_iff _ _ _).mpr ⟨hO, hfull⟩)
  rw [hrun]
  refine ⟨kept ser (L.order m), ⟨?_, ?_⟩, h1, h2, h3⟩
  · unfold kept
    rw [List.map_map]
    have h1 : ((L.order m).map (·.1)).Nodup := ((horder m).map _).nodup_iff.mpr hmn
    exact h1.sublist (List.filter_sublist.map _)
  · intro k
    unfold kept StoredAs
    rw [List.mem_map]
    constructor
    · rintro ⟨⟨a, e⟩, hx, rfl⟩
      obtain ⟨h1, h2⟩ := List.mem_filter.mp hx
      obtain ⟨ha, e0, hnew, he⟩ := ((hme a).1 e).mp ((horder m).mem_iff.mp h1)
      exact ⟨e, ⟨ha, by simpa using h2, e0, hnew, he⟩, rfl⟩
    · rintro ⟨e, ⟨ha, hl, e0, hnew, he⟩, hp⟩
      have hin := ((hme k.id).1 e).mpr ⟨ha, e0, hnew, he⟩
      refine ⟨(k.id, e), List.mem_filter.mpr ⟨(horder m).mem_iff.mpr hin, by simpa using hl⟩, ?_⟩
      cases k
      simp only at hp
      rw [hp]

theorem main_parse (L : Lib) (d : Disk) (limit : Nat) (D O : Path) (r : Bool) (hD : D ≠ []) (hO : O ≠ []) :
    main L d limit ⟨"parseDump", D, O, r⟩ = orFatal (parseSksDump L d D O) := by
  unfold main
  simp [hD, hO]

theorem main_chunks (L : Lib) (d : Disk) (limit : Nat) (p S : Path) (r : Bool) (hp : p ≠ []) (hS : S ≠ []) :
    main L d limit ⟨"genChunks", p, S, r⟩ = orFatal (splitFullDumpIntoChunks L d limit p S) := by
  unfold main
  simp [hp, hS]

theorem orFatal_fst (r : List Op × Res Unit) : (orFatal r).1 = r.1 := by
  unfold orFatal
  split <;> rfl

theorem orFatal_of_ok {r : List Op × Res Unit} {u : Unit} (h : r.2 = ok u) : orFatal r = r := by
  unfold orFatal
  rw [h]

/-- A file of keys loads. -/
theorem loadFile_holds {L : Lib} (hgob : GobFaithful L) {d : Disk} {p : Path} {keys : List Key} (h : Holds L d p keys) :
    loadFile L d p = ok keys := by
  unfold loadFile readFile
  unfold Holds entry at h
  rw [h]
  dsimp only
  rw [ok_bind, hgob keys, ok_bind]

/-- What a server makes of a directory whose entries are these files of keys. -/
theorem server_run {L : Lib} (hgob : GobFaithful L) {d : Disk} (hd : Proper d) {S : Path} (hS : entry d S = some .dir)
    (files : List (Path × List Key)) (hn : (files.map (·.1)).Nodup)
    (hmem : ∀ f ∈ files, IsName f.1 ∧ Holds L d (join S f.1) f.2)
    (hall : ∀ n, IsName n → (entry d (join S n)).isSome → n ∈ files.map (·.1)) :
    ∃ sorted : List (Path × List Key), sorted.Perm files ∧ InOrder sorted ∧
      serverDir L d S = ok (sorted.map (fun f => (f.1, ok f.2))) ∧
      ∀ k, k ≤ files.length → serverKeys L d S k = ok (keysIn sorted k) := by
  obtain ⟨names, h1, h2, h3⟩ := readDir_spec hd hS
  have hperm : names.Perm (files.map (·.1)) := by
    rw [List.perm_ext_iff_of_nodup _ hn]
    · intro n
      rw [h3]
      constructor
      · rintro ⟨ha, hb⟩
        exact hall n ha hb
      · intro hm
        obtain ⟨f, hf, rfl⟩ := List.mem_map.mp hm
        obtain ⟨ha, hb⟩ := hmem f hf
        exact ⟨ha, by rw [hb]; rfl⟩
    · rw [List.nodup_iff_pairwise_ne]
      exact h2.imp (fun h e => by rw [e] at h; exact List.lt_irrefl _ h)
  -- the keys of a name
  let keysOf : Path → List Key := fun n => (mget files n).getD []
  have hk : ∀ f ∈ files, keysOf f.1 = f.2 := by
    intro f hf
    have : mget files f.1 = some f.2 := (mget_eq_some hn f.1 f.2).mpr hf
    simp only [keysOf, this, Option.getD_some]
  have hload : ∀ n ∈ names, loadFile L d (join S n) = ok (keysOf n) := by
    intro n hm
    obtain ⟨f, hf, rfl⟩ := List.mem_map.mp (hperm.mem_iff.mp hm)
    rw [hk f hf]
    exact loadFile_holds hgob (hmem f hf).2
  refine ⟨names.map (fun n => (n, keysOf n)), ?_, ?_, ?_, ?_⟩
  · have h4 := hperm.map (fun n => (n, keysOf n))
    refine h4.trans ?_
    rw [List.map_map]
    have : files.map ((fun n => (n, keysOf n)) ∘ fun x => x.1) = files.map id := by
      apply List.map_congr_left
      intro f hf
      simp only [Function.comp, hk f hf, id]
    rw [this, List.map_id]
  · unfold InOrder
    rw [List.pairwise_map]
    exact h2
  · unfold serverDir
    rw [h1, ok_bind, List.map_map]
    congr 1
    apply List.map_congr_left
    intro n hm
    simp only [Function.comp, hload n hm]
  · intro k hle
    have hlen : names.length = files.length := by rw [hperm.length_eq, List.length_map]
    unfold serverKeys getAllFiles
    rw [h1, ok_bind, Client.orFatal_ok, ok_bind, (C58_files _ _).1 ⟨by omega, by rw [List.length_map, hlen]; omega⟩, ok_bind]
    have : ((names.map (join S)).take (k : Int).toNat).map (loadFile L d) = ((names.take k).map keysOf).map ok := by
      rw [← List.map_take, Int.toNat_natCast, List.map_map, List.map_map]
      apply List.map_congr_left
      intro n hm
      exact hload n (List.mem_of_mem_take hm)
    rw [this, load_ok, Client.orFatal_ok]
    unfold keysIn
    rw [← List.map_take, List.flatMap_map]
    rfl

/-- The command that imports a dump. -/
def parseFlags (D O : Path) : Flags := ⟨"parseDump", D, O, false⟩

/-- The command that splits the imported keys. -/
def chunkFlags (p S : Path) : Flags := ⟨"genChunks", p, S, false⟩

/-- C71 as claimed: if the dump in directory `D` is imported to directory `O`, and the result is split into directory `S`, a
server started on all files of `S` has the keys of the dump, for every address the newest. -/
def C71_Statement : Prop :=
  ∀ (L : Lib) (ser : Entity → List Byte), (∀ e, L.serialize e = ok (ser e)) → Enumerates L.order → GobFaithful L →
  ∀ (d : Disk), Proper d → ∀ (D O S : Path) (dump : List (Path × List Entity)), D ≠ [] → S ≠ [] →
    DumpIs L d D ContainsDumpName dump →
    (main L d hundredMb (parseFlags D O)).2 = ok () →
    let d1 := after L d hundredMb (parseFlags D O)
    (main L d1 hundredMb (chunkFlags (join O fullName) S)).2 = ok () →
    let d2 := after L d1 hundredMb (chunkFlags (join O fullName) S)
    ∀ names, readDir d2 S = ok names →
    ∃ loaded, serverKeys L d2 S names.length = ok loaded ∧ KeysOf L.lower ser (dump.map (·.2)) loaded

theorem keysOf_perm {lower : Str → Str} {ser : Entity → List Byte} {dump : List (List Entity)} {a b : List Key}
    (h : KeysOf lower ser dump a) (hp : b.Perm a) : KeysOf lower ser dump b :=
  ⟨(hp.map _).nodup_iff.mpr h.distinct, fun k => by rw [hp.mem_iff]; exact h.mem k⟩

/-- The files of a directory `S` after splitting: the chunks and the other files that were there, if these are files of
keys. -/
theorem chunked_server {L : Lib} (hgob : GobFaithful L) {d d' : Disk} (hd : Proper d') {S : Path} (hS : entry d S = some .dir)
    {chunks : List (List Key)} (hc : Chunked L S chunks d d') (hSS : ∀ i, i < chunks.length → S ≠ join S (chunkName i))
    (extra : List (Path × List Key)) (hn : (extra.map (·.1)).Nodup)
    (hex : ∀ f ∈ extra, IsName f.1 ∧ (∀ i, i < chunks.length → f.1 ≠ chunkName i) ∧ Holds L d (join S f.1) f.2)
    (hall : ∀ n, IsName n → (entry d (join S n)).isSome → (∃ i, i < chunks.length ∧ n = chunkName i) ∨ n ∈ extra.map (·.1)) :
    ∃ sorted : List (Path × List Key), sorted.Perm (Deploy.chunkFiles chunks ++ extra) ∧ InOrder sorted ∧
      serverDir L d' S = ok (sorted.map (fun f => (f.1, ok f.2))) ∧
      ∀ k, k ≤ chunks.length + extra.length → serverKeys L d' S k = ok (keysIn sorted k) := by
  have hmemc : ∀ f, f ∈ Deploy.chunkFiles chunks ↔ ∃ i, ∃ h : i < chunks.length, f = (chunkName i, chunks[i]) := by
    intro f
    unfold Deploy.chunkFiles
    rw [List.mem_map]
    constructor
    · rintro ⟨⟨c, i⟩, h, rfl⟩
      rw [List.mem_zipIdx_iff_getElem?] at h
      obtain ⟨hi, he⟩ := List.getElem?_eq_some_iff.mp h
      exact ⟨i, hi, by rw [← he]⟩
    · rintro ⟨i, hi, rfl⟩
      exact ⟨(chunks[i], i), by rw [List.mem_zipIdx_iff_getElem?]; simp [hi], rfl⟩
  have hcn : ((Deploy.chunkFiles chunks).map (·.1)).Nodup := by
    unfold Deploy.chunkFiles
    rw [List.map_map, List.nodup_iff_pairwise_ne, List.pairwise_map, List.pairwise_iff_getElem]
    intro i j hi hj hij
    simp only [List.getElem_zipIdx, Function.comp]
    intro he
    have := chunkName_inj he
    omega
  have hlen : (Deploy.chunkFiles chunks).length = chunks.length := by simp [Deploy.chunkFiles]
  have hS' : entry d' S = some .dir := by rw [hc.rest S hSS, hS]
  have := server_run hgob hd hS' (Deploy.chunkFiles chunks ++ extra) ?_ ?_ ?_
  · simpa [hlen] using this
  · rw [List.map_append, List.nodup_append]
    refine ⟨hcn, hn, ?_⟩
    intro a ha b hb hab
    subst hab
    obtain ⟨f, hf, rfl⟩ := List.mem_map.mp ha
    obtain ⟨g, hg, he⟩ := List.mem_map.mp hb
    obtain ⟨i, hi, rfl⟩ := (hmemc f).mp hf
    exact (hex g hg).2.1 i hi he
  · intro f hf
    rcases List.mem_append.mp hf with hf | hf
    · obtain ⟨i, hi, rfl⟩ := (hmemc f).mp hf
      exact ⟨chunkName_name i, hc.holds i hi⟩
    · obtain ⟨h1, h2, h3⟩ := hex f hf
      refine ⟨h1, ?_⟩
      unfold Holds
      rw [hc.rest _ (fun i hi he => h2 i hi (join_inj h1.2 (chunkName_name i).2 he).2)]
      exact h3
  · intro n hnn hsome
    rw [List.map_append, List.mem_append]
    by_cases hci : ∃ i, i < chunks.length ∧ n = chunkName i
    · obtain ⟨i, hi, rfl⟩ := hci
      exact Or.inl (List.mem_map.mpr ⟨_, (hmemc _).mpr ⟨i, hi, rfl⟩, rfl⟩)
    · rw [hc.rest _ (fun i hi he => hci ⟨i, hi, (join_inj hnn.2 (chunkName_name i).2 he).2⟩)] at hsome
      rcases hall n hnn hsome with h | h
      · exact absurd h hci
      · exact Or.inr h

theorem join_ne_self (S n : Path) : S ≠ join S n := by
  intro h
  have := congrArg List.length h
  unfold join at this
  simp at this

/-- What `genChunks` does to a file of keys. -/
theorem chunk_run {L : Lib} (hgob : GobFaithful L) (d : Disk) (limit : Nat) (path S : Path) (keys : List Key)
    (hin : Holds L d path keys) (hpath : ∀ i, path ≠ join S (chunkName i)) (hS : entry d S = some .dir)
    (hdirs : ∀ i, entry d (join S (chunkName i)) ≠ some .dir) :
    (splitFullDumpIntoChunks L d limit path S).2 = ok () ∧
    Chunked L S (splitDump limit keys (ok ())).1 d (applyAll d (splitFullDumpIntoChunks L d limit path S).1) := by
  obtain ⟨h1, h2, -⟩ := split_run L d limit path S _ keys (ok ()) hin (hgob keys) (hpath 0)
    (fun i _ => (canCreate_iff _ _ _).mpr ⟨hS, hdirs i⟩)
  exact ⟨h1, h2⟩

/-- C71: after import and splitting, the directory `S` consists of the chunks and of the other files that were there, and a
server started on all of them has the keys of the dump and those of the other files. -/
theorem C71_loaded (L : Lib) (ser : Entity → List Byte) (hser : ∀ e, L.serialize e = ok (ser e)) (horder : Enumerates L.order)
    (hgob : GobFaithful L) (limit : Nat) (d : Disk) (hd : Proper d) (D O S : Path) (dump : List (Path × List Entity))
    (hD0 : D ≠ []) (hO0 : O ≠ []) (hS0 : S ≠ []) (hD : entry d D = some .dir) (hO : entry d O = some .dir)
    (hS : entry d S = some .dir) (hfull : entry d (join O fullName) ≠ some .dir)
    (hdirs : ∀ i, entry d (join S (chunkName i)) ≠ some .dir)
    (hdump : DumpIs L d D ContainsDumpName dump) :
    let d1 := after L d limit (parseFlags D O)
    let d2 := after L d1 limit (chunkFlags (join O fullName) S)
    (main L d limit (parseFlags D O)).2 = ok () ∧
    (main L d1 limit (chunkFlags (join O fullName) S)).2 = ok () ∧
    ∃ keys, KeysOf L.lower ser (dump.map (·.2)) keys ∧ Wrote L (join O fullName) keys d d1 ∧
      Chunked L S (splitDump limit keys (ok ())).1 d1 d2 ∧ Proper d2 ∧
      ∀ extra : List (Path × List Key), (extra.map (·.1)).Nodup →
        (∀ f ∈ extra, IsName f.1 ∧ (∀ i, i < (splitDump limit keys (ok ())).1.length → f.1 ≠ chunkName i) ∧
          Holds L d1 (join S f.1) f.2) →
        (∀ n, IsName n → (entry d1 (join S n)).isSome →
          (∃ i, i < (splitDump limit keys (ok ())).1.length ∧ n = chunkName i) ∨ n ∈ extra.map (·.1)) →
        ∃ names loaded, readDir d2 S = ok names ∧ serverKeys L d2 S names.length = ok loaded ∧
          loaded.Perm (keys ++ extra.flatMap (·.2)) := by
  intro d1 d2
  obtain ⟨keys, hkeys, hp1, hp2, -⟩ := parse_run L ser hser horder d hd D O dump hD hO hfull hdump
  have hm1 : main L d limit (parseFlags D O) = parseSksDump L d D O := by
    unfold parseFlags
    rw [main_parse L d limit D O false hD0 hO0, orFatal_of_ok hp1]
  have hd1 : d1 = applyAll d (parseSksDump L d D O).1 := by
    show applyAll d (main L d limit (parseFlags D O)).1 = _
    rw [hm1]
  rw [← hd1] at hp2
  have hp1' : Proper d1 := by rw [hd1]; exact proper_applyAll hd _
  have hS1 : entry d1 S = some .dir := by
    by_cases hc : S = join O fullName
    · rw [hc] at hS; exact absurd hS hfull
    · rw [hp2.rest S hc, hS]
  have hneq : ∀ i, join O fullName ≠ join S (chunkName i) := fun i he =>
    chunkName_ne_full i (join_inj fullName_name.2 (chunkName_name i).2 he).2.symm
  have hdirs1 : ∀ i, entry d1 (join S (chunkName i)) ≠ some .dir := by
    intro i
    rw [hp2.rest _ (fun h => hneq i h.symm)]
    exact hdirs i
  obtain ⟨hc1, hc2⟩ := chunk_run hgob d1 limit (join O fullName) S keys hp2.holds hneq hS1 hdirs1
  have hm2 : main L d1 limit (chunkFlags (join O fullName) S) = splitFullDumpIntoChunks L d1 limit (join O fullName) S := by
    unfold chunkFlags
    rw [main_chunks L d1 limit _ S false (by simp [join]) hS0, orFatal_of_ok hc1]
  have hd2 : d2 = applyAll d1 (splitFullDumpIntoChunks L d1 limit (join O fullName) S).1 := by
    show applyAll d1 (main L d1 limit (chunkFlags (join O fullName) S)).1 = _
    rw [hm2]
  rw [← hd2] at hc2
  have hp2' : Proper d2 := by rw [hd2]; exact proper_applyAll hp1' _
  refine ⟨by rw [hm1]; exact hp1, by rw [hm2]; exact hc1, keys, hkeys, hp2, hc2, hp2', ?_⟩
  intro extra hn hex hall
  obtain ⟨sorted, hperm, -, hdir, hk⟩ := chunked_server hgob hp2' hS1 hc2 (fun i _ => join_ne_self _ _) extra hn hex hall
  have hlen : (Deploy.chunkFiles (splitDump limit keys (ok ())).1).length = (splitDump limit keys (ok ())).1.length := by
    simp [Deploy.chunkFiles]
  have hs : sorted.length = (splitDump limit keys (ok ())).1.length + extra.length := by
    rw [hperm.length_eq, List.length_append, hlen]
  unfold serverDir at hdir
  rw [bind_eq_ok] at hdir
  obtain ⟨names, hnames, he⟩ := hdir
  have hl : names.length = sorted.length := by
    have := congrArg List.length (ok.inj he)
    simpa using this
  refine ⟨names, _, hnames, hk _ (by rw [hl, hs]), ?_⟩
  unfold keysIn
  rw [List.take_of_length_le (by rw [hl])]
  refine (List.Perm.flatMap_right _ hperm).trans ?_
  rw [List.flatMap_append]
  have : (Deploy.chunkFiles (splitDump limit keys (ok ())).1).flatMap (·.2) = keys := by
    have h := Deploy.chunkFiles_keys (splitDump limit keys (ok ())).1
    unfold keysIn at h
    rw [List.take_of_length_le (by rw [hlen])] at h
    rw [h, (C52_content limit keys (ok ())).1]
  rw [this]

/-- C71: if the directory `S` has no other files, a server started on all files has the keys of the dump, for every address the
newest. Missing from the full claim: a directory with other files, in particular chunks of an earlier run. -/
theorem C71_pipeline_partial (L : Lib) (ser : Entity → List Byte) (hser : ∀ e, L.serialize e = ok (ser e))
    (horder : Enumerates L.order) (hgob : GobFaithful L) (limit : Nat) (d : Disk) (hd : Proper d) (D O S : Path)
    (dump : List (Path × List Entity)) (hD0 : D ≠ []) (hO0 : O ≠ []) (hS0 : S ≠ []) (hD : entry d D = some .dir)
    (hO : entry d O = some .dir) (hS : entry d S = some .dir) (hOS : O ≠ S) (hfull : entry d (join O fullName) ≠ some .dir)
    (hempty : ∀ n, IsName n → entry d (join S n) = none) (hdump : DumpIs L d D ContainsDumpName dump) :
    let d1 := after L d limit (parseFlags D O)
    let d2 := after L d1 limit (chunkFlags (join O fullName) S)
    (main L d limit (parseFlags D O)).2 = ok () ∧
    (main L d1 limit (chunkFlags (join O fullName) S)).2 = ok () ∧
    ∃ names loaded, readDir d2 S = ok names ∧ serverKeys L d2 S names.length = ok loaded ∧
      KeysOf L.lower ser (dump.map (·.2)) loaded := by
  intro d1 d2
  obtain ⟨h1, h2, keys, hkeys, hw, -, -, h3⟩ := C71_loaded L ser hser horder hgob limit d hd D O S dump hD0 hO0 hS0 hD hO hS hfull
    (fun i => by rw [hempty _ (chunkName_name i)]; simp) hdump
  obtain ⟨names, loaded, h4, h5, h6⟩ := h3 [] (by simp) (by simp) (by
    intro n hn hsome
    rw [hw.rest _ (fun he => hOS (join_inj hn.2 fullName_name.2 he).1.symm), hempty n hn] at hsome
    cases hsome)
  exact ⟨h1, h2, names, loaded, h4, h5, keysOf_perm hkeys (by simpa using h6)⟩

/-- C71: importing into the directory of the chunks makes a server load every key twice. -/
theorem C71_same_directory (L : Lib) (ser : Entity → List Byte) (hser : ∀ e, L.serialize e = ok (ser e))
    (horder : Enumerates L.order) (hgob : GobFaithful L) (limit : Nat) (d : Disk) (hd : Proper d) (D S : Path)
    (dump : List (Path × List Entity)) (hD0 : D ≠ []) (hS0 : S ≠ []) (hD : entry d D = some .dir)
    (hS : entry d S = some .dir) (hempty : ∀ n, IsName n → entry d (join S n) = none)
    (hdump : DumpIs L d D ContainsDumpName dump) :
    let d1 := after L d limit (parseFlags D S)
    let d2 := after L d1 limit (chunkFlags (join S fullName) S)
    ∃ keys names loaded, KeysOf L.lower ser (dump.map (·.2)) keys ∧ readDir d2 S = ok names ∧
      serverKeys L d2 S names.length = ok loaded ∧ loaded.Perm (keys ++ keys) := by
  intro d1 d2
  obtain ⟨-, -, keys, hkeys, hw, -, -, h3⟩ := C71_loaded L ser hser horder hgob limit d hd D S S dump hD0 hS0 hS0 hD hS hS
    (by rw [hempty _ fullName_name]; simp) (fun i => by rw [hempty _ (chunkName_name i)]; simp) hdump
  obtain ⟨names, loaded, h4, h5, h6⟩ := h3 [(fullName, keys)] (by simp) (by
    intro f hf
    simp only [List.mem_singleton] at hf
    subst hf
    exact ⟨fullName_name, fun i _ he => chunkName_ne_full i he.symm, hw.holds⟩) (by
    intro n hn hsome
    by_cases hf : n = fullName
    · right; simp [hf]
    · rw [hw.rest _ (fun he => hf (join_inj hn.2 fullName_name.2 he).2), hempty n hn] at hsome
      cases hsome)
  exact ⟨keys, names, loaded, hkeys, h4, h5, by simpa using h6⟩

/-- C71: the command `genDB` reports success and writes nothing. -/
theorem C71_genDB_does_nothing (L : Lib) (d : Disk) (limit : Nat) (path out : Path) (r : Bool) (hp : path ≠ []) (ho : out ≠ []) :
    main L d limit ⟨"genDB", path, out, r⟩ = ([], ok ()) ∧ after L d limit ⟨"genDB", path, out, r⟩ = d := by
  have : main L d limit ⟨"genDB", path, out, r⟩ = ([], ok ()) := by
    unfold main
    simp [hp, ho, generateDB, orFatal]
  exact ⟨this, by unfold after; rw [this]; rfl⟩

/-- C71: splitting a file that is the first chunk of the same directory deletes all its keys and reports success. -/
theorem C71_input_deleted (L : Lib) (hgob : GobFaithful L) (d : Disk) (limit : Nat) (S : Path) (hS0 : S ≠ [])
    (hS : entry d S = some .dir) (keys : List Key) (hin : Holds L d (join S (chunkName 0)) keys) (r : Bool) :
    (main L d limit ⟨"genChunks", join S (chunkName 0), S, r⟩).2 = ok () ∧
    Holds L (after L d limit ⟨"genChunks", join S (chunkName 0), S, r⟩) (join S (chunkName 0)) [] := by
  have hcan : canCreate d S (chunkName 0) = true := (canCreate_iff _ _ _).mpr ⟨hS, by rw [hin]; simp⟩
  have hdec : L.decode [] = ([], ok ()) := hgob []
  have hrun : splitFullDumpIntoChunks L d limit (join S (chunkName 0)) S = ([.create (join S (chunkName 0))], ok ()) := by
    unfold splitFullDumpIntoChunks
    have h1 : mget d.nodes (join S (chunkName 0)) = some (.file (encoded L keys)) := hin
    have h2 : readFile (apply d (.create (join S (chunkName 0)))) (join S (chunkName 0)) = ok [] := by
      have := entry_create d (join S (chunkName 0)) (join S (chunkName 0))
      rw [if_pos rfl] at this
      unfold readFile
      unfold entry at this
      rw [this]
    rw [h1]
    dsimp only
    rw [h2]
    dsimp only
    rw [hdec]
    unfold splitLoop
    simp [hcan]
  have hm : main L d limit ⟨"genChunks", join S (chunkName 0), S, r⟩ = ([.create (join S (chunkName 0))], ok ()) := by
    rw [main_chunks L d limit _ S r (by simp [join]) hS0, hrun]
    rfl
  refine ⟨by rw [hm], ?_⟩
  unfold after Holds
  rw [hm]
  show entry (apply d (.create (join S (chunkName 0)))) (join S (chunkName 0)) = _
  rw [entry_create, if_pos rfl]
  rfl

/-- C71: without a command, an input or an output, or with another command, the program ends with an error and writes
nothing. -/
theorem C71_usage (L : Lib) (d : Disk) (limit : Nat) (f : Flags)
    (h : f.cmd ∉ ["genChunks", "genDB", "parseDump"] ∨ f.path = [] ∨ f.out = []) :
    (main L d limit f).1 = [] ∧ (main L d limit f).2.isCrash := by
  unfold main
  split
  · exact ⟨rfl, trivial⟩
  · rename_i hn
    simp only [not_or] at hn
    simp only [hn.2.1, hn.2.2, or_false, List.mem_cons, List.not_mem_nil, not_or] at h
    simp [h.1, h.2.1, h.2.2]

/-! Examples: an encoding in which each byte is preceded by 1 and each field is ended by 0. -/

/-- The bytes of one field. -/
def exField (s : List Byte) : List Byte := s.flatMap (fun b => [1, b]) ++ [0]

/-- Reading keys. -/
def exDecode : List Byte → List Key → Option Str → List Byte → List Key × Res Unit
  | [], done, id, cur => if id = none ∧ cur = [] then (done, ok ()) else (done, err "unexpected EOF")
  | t :: rest, done, id, cur =>
    if t = 0 then
      match id with
      | none => exDecode rest done (some cur) []
      | some id => exDecode rest (done ++ [⟨id, cur⟩]) none []
    else
      match rest with
      | b :: rest => exDecode rest done id (cur ++ [b])
      | [] => (done, err "unexpected EOF")

/-- Libraries for the examples. -/
def exData : Lib where
  lower := id
  readRing := ringOfBytes
  serialize e := ok (exSer e)
  order := List.reverse
  encode _ k := exField k.id ++ exField k.packet
  decode bs := exDecode bs [] none []

theorem exDecode_bytes (s rest : List Byte) (done : List Key) (id : Option Str) (cur : List Byte) :
    exDecode (s.flatMap (fun b => [1, b]) ++ rest) done id cur = exDecode rest done id (cur ++ s) := by
  induction s generalizing cur with
  | nil => simp
  | cons b s ih =>
    rw [List.flatMap_cons]
    show exDecode (1 :: b :: (s.flatMap (fun b => [1, b]) ++ rest)) done id cur = _
    rw [exDecode.eq_def]
    dsimp only
    rw [if_neg (by decide)]
    rw [ih]
    simp

theorem exData_gob : GobFaithful exData := by
  have key : ∀ (ks done done' : List Key), exDecode (encodedFrom exData done' ks) done none [] = (done ++ ks, ok ()) := by
    intro ks
    induction ks with
    | nil => intro done done'; simp [encodedFrom, exDecode]
    | cons k ks ih =>
      intro done done'
      show exDecode ((exField k.id ++ exField k.packet) ++ encodedFrom exData (done' ++ [k]) ks) done none [] = _
      unfold exField
      simp only [List.append_assoc, exDecode_bytes]
      rw [List.singleton_append, exDecode.eq_def]
      dsimp only
      rw [if_pos rfl, exDecode_bytes, List.singleton_append, exDecode.eq_def]
      dsimp only
      rw [if_pos rfl]
      rw [ih]
      simp
  intro ks
  exact key ks [] []

/-- A disk with a dump of one file, empty directories `o` and `s`, and these entries. -/
def exDiskOf (bs : List Byte) (more : List (Path × Node)) : Disk :=
  ⟨[("d".toList, .dir), ("o".toList, .dir), ("s".toList, .dir), ("d/sks-dump-0000.pgp".toList, .file bs)] ++ more⟩

/-- A disk with a dump of one file with two keys. -/
def exDisk (more : List (Path × Node)) : Disk := exDiskOf [7, 9] more

theorem exDiskOf_dump (ring : List Byte) (more : List (Path × Node)) (hm : ∀ e ∈ more, nameIn "d".toList e.1 = none) :
    DumpIs exData (exDiskOf ring more) "d".toList ContainsDumpName
      [("sks-dump-0000.pgp".toList, ring.map (fun x => entityOf [x, 1]))] := by
  have hentry : entry (exDiskOf ring more) (join "d".toList "sks-dump-0000.pgp".toList) = some (.file ring) := by
    unfold entry exDiskOf mget
    rfl
  have hname : IsName "sks-dump-0000.pgp".toList := ⟨by decide, by decide⟩
  have hdump : ContainsDumpName "sks-dump-0000.pgp".toList := ⟨[], "0000".toList, [], by decide, by decide, by decide⟩
  have honly : ∀ n, IsName n → (entry (exDiskOf ring more) (join "d".toList n)).isSome → n = "sks-dump-0000.pgp".toList := by
    intro n hn h
    obtain ⟨e, he, hp⟩ := (entry_isSome _ _).mp h
    have hin : nameIn "d".toList e.1 = some n := (nameIn_eq_some _ _ _).mpr ⟨hn, hp⟩
    unfold exDiskOf at he
    rcases List.mem_append.mp he with he | he
    · simp only [List.mem_cons, List.not_mem_nil, or_false] at he
      rcases he with rfl | rfl | rfl | rfl
      · exact absurd hin (by rw [show nameIn "d".toList "d".toList = none by decide]; simp)
      · exact absurd hin (by rw [show nameIn "d".toList "o".toList = none by decide]; simp)
      · exact absurd hin (by rw [show nameIn "d".toList "s".toList = none by decide]; simp)
      · rw [show nameIn "d".toList "d/sks-dump-0000.pgp".toList = some "sks-dump-0000.pgp".toList by decide] at hin
        simpa using hin.symm
    · rw [hm e he] at hin
      cases hin
  refine ⟨by simp [InOrder], ?_, ?_⟩
  · intro n es
    rw [List.mem_singleton]
    constructor
    · intro h
      simp only [Prod.mk.injEq] at h
      obtain ⟨rfl, rfl⟩ := h
      exact ⟨hname, hdump, _, hentry, rfl⟩
    · rintro ⟨h1, -, bs, h3, h4⟩
      have := honly n h1 (by rw [h3]; rfl)
      subst this
      rw [hentry] at h3
      simp only [Option.some.injEq, Node.file.injEq] at h3
      subst h3
      have h4' : ringOfBytes ring = ok es := h4
      rw [← ok.inj h4']
  · intro n hn _ h
    rw [honly n hn h]
    exact ⟨_, List.mem_singleton.mpr rfl⟩

theorem exDisk_dump (more : List (Path × Node)) (hm : ∀ e ∈ more, nameIn "d".toList e.1 = none) :
    DumpIs exData (exDisk more) "d".toList ContainsDumpName
      [("sks-dump-0000.pgp".toList, [entityOf [7, 1], entityOf [9, 1]])] := exDiskOf_dump [7, 9] more hm

theorem exSer_le (e : Entity) : (exSer e).length ≤ 8192 := by
  unfold exSer
  rw [List.length_take]
  omega

/-- The hypotheses of `C71_pipeline_partial`, and a key that is loaded. -/
example : ∃ names loaded,
    readDir (after exData (after exData (exDisk []) hundredMb (parseFlags "d".toList "o".toList)) hundredMb
      (chunkFlags (join "o".toList fullName) "s".toList)) "s".toList = ok names ∧
    serverKeys exData (after exData (after exData (exDisk []) hundredMb (parseFlags "d".toList "o".toList)) hundredMb
      (chunkFlags (join "o".toList fullName) "s".toList)) "s".toList names.length = ok loaded ∧
    (⟨[7, 1], [7]⟩ : Key) ∈ loaded := by
  obtain ⟨-, -, names, loaded, h1, h2, h3⟩ := C71_pipeline_partial exData exSer (fun _ => rfl) List.reverse_perm exData_gob
    hundredMb (exDisk []) (by unfold Proper; decide) "d".toList "o".toList "s".toList _ (by decide) (by decide) (by decide)
    (by decide) (by decide) (by decide) (by decide) (by decide) (by
      intro n hn
      cases h : entry (exDisk []) (join "s".toList n) with
      | none => rfl
      | some x =>
        exfalso
        obtain ⟨e, he, hp⟩ := (entry_isSome (exDisk []) (join "s".toList n)).mp (by rw [h]; rfl)
        have hin : nameIn "s".toList e.1 = some n := (nameIn_eq_some _ _ _).mpr ⟨hn, hp⟩
        have : ∀ e ∈ (exDisk []).nodes, nameIn "s".toList e.1 = none := by decide
        rw [this e he] at hin
        cases hin) (exDisk_dump [] (by simp))
  refine ⟨names, loaded, h1, h2, (h3.mem _).mpr ⟨entityOf [7, 1], ⟨by simp, exSer_le _, entityOf [7, 1], ?_, rfl⟩, rfl⟩⟩
  refine ⟨[], [entityOf [9, 1]], rfl, ⟨rfl, Or.inl ⟨by decide, rfl⟩⟩, by simp, ?_⟩
  intro x hx _
  simp only [List.mem_singleton] at hx
  subst hx
  decide

/-- C71 as claimed is false: a chunk that was left by an earlier run is loaded as well. -/
theorem C71_refuted : ¬ C71_Statement := by
  intro h
  have hstale : ∀ e ∈ [("s/sks-001.pgp".toList, Node.file (encoded exData [⟨[5, 5], [5]⟩]))], nameIn "d".toList e.1 = none := by
    decide
  have hprop : Proper (exDisk [("s/sks-001.pgp".toList, Node.file (encoded exData [⟨[5, 5], [5]⟩]))]) := by
    unfold Proper; decide
  obtain ⟨h1, h2, keys, hkeys, hw, -, -, h3⟩ := C71_loaded exData exSer (fun _ => rfl) List.reverse_perm exData_gob
    hundredMb (exDisk [("s/sks-001.pgp".toList, Node.file (encoded exData [⟨[5, 5], [5]⟩]))]) hprop
    "d".toList "o".toList "s".toList _ (by decide) (by decide) (by decide) (by decide) (by decide) (by decide) (by decide)
    (by
      intro i he
      have := (entry_isSome _ (join "s".toList (chunkName i))).mp (by rw [he]; rfl)
      obtain ⟨e, hm, hp⟩ := this
      have hin : nameIn "s".toList e.1 = some (chunkName i) := (nameIn_eq_some _ _ _).mpr ⟨chunkName_name i, hp⟩
      have hall : ∀ e ∈ (exDisk [("s/sks-001.pgp".toList, Node.file (encoded exData [⟨[5, 5], [5]⟩]))]).nodes,
        nameIn "s".toList e.1 = none ∨ e.1 = "s/sks-001.pgp".toList := by decide
      rcases hall e hm with hz | hz
      · rw [hz] at hin; cases hin
      · rw [← hp, hz] at he
        exact absurd he (by decide)) (exDisk_dump _ hstale)
  -- all keys fit into one chunk
  have hids : ∀ k ∈ keys, (k.id = [7, 1] ∨ k.id = [9, 1]) ∧ k.packet.length ≤ 1 := by
    intro k hk
    obtain ⟨e, ⟨-, -, e', ⟨b, a, hsplit, ⟨-, hfiled⟩, -, -⟩, rfl⟩, hp⟩ := (hkeys.mem k).mp hk
    have hin : e' ∈ [entityOf [7, 1], entityOf [9, 1]] := by
      have : e' ∈ b ++ e' :: a := by simp
      rw [← hsplit] at this
      simpa using this
    constructor
    · simp only [List.mem_cons, List.not_mem_nil, or_false] at hin
      rcases hin with rfl | rfl
      · rcases hfiled with ⟨-, h⟩ | ⟨h, -⟩ | ⟨h, -⟩
        · exact Or.inl h
        · cases h
        · cases h
      · rcases hfiled with ⟨-, h⟩ | ⟨h, -⟩ | ⟨h, -⟩
        · exact Or.inr h
        · cases h
        · cases h
    · rw [hp]
      unfold exSer
      rw [List.length_take]
      omega
  have hlen : keys.length ≤ 2 := by
    have : keys.map (·.id) ⊆ [[7, 1], [9, 1]] := by
      intro x hx
      obtain ⟨k, hk, rfl⟩ := List.mem_map.mp hx
      rcases (hids k hk).1 with h | h <;> simp [h]
    have := (List.subperm_of_subset hkeys.distinct this).length_le
    simpa using this
  have hone : (splitDump hundredMb keys (ok ())).1.length ≤ 1 := by
    have hK := C52_hundred_mb 3 keys (ok ()) (by
      intro k hk
      obtain ⟨h1, h2⟩ := hids k hk
      rcases h1 with h1 | h1 <;> rw [h1] <;> simp <;> omega)
    have hsize : totalSize keys ≤ keys.length * 3 := by
      unfold totalSize
      have := List.sum_le_card_nsmul (keys.map (fun k => k.packet.length + k.id.length)) 3 (by
        intro x hx
        obtain ⟨k, hk, rfl⟩ := List.mem_map.mp hx
        obtain ⟨h1, h2⟩ := hids k hk
        rcases h1 with h1 | h1 <;> rw [h1] <;> simp <;> omega)
      simpa using this
    have : totalSize keys / (100 * 2 ^ 20) = 0 := Nat.div_eq_of_lt (by omega)
    omega
  have hrest : entry (after exData (exDisk [("s/sks-001.pgp".toList, Node.file (encoded exData [⟨[5, 5], [5]⟩]))]) hundredMb
      (parseFlags "d".toList "o".toList)) (join "s".toList (chunkName 1)) =
      some (Node.file (encoded exData [⟨[5, 5], [5]⟩])) := by
    rw [hw.rest _ (by decide)]
    decide
  obtain ⟨names, loaded, h4, h5, h6⟩ := h3 [(chunkName 1, [⟨[5, 5], [5]⟩])] (by simp) (by
    intro f hf
    simp only [List.mem_singleton] at hf
    subst hf
    refine ⟨chunkName_name 1, ?_, hrest⟩
    intro i hi he
    have := chunkName_inj he
    omega) (by
    intro n hn hsome
    right
    rw [hw.rest _ (fun he => absurd (join_inj hn.2 fullName_name.2 he).1 (by decide))] at hsome
    obtain ⟨e, hm, hp⟩ := (entry_isSome _ _).mp hsome
    have hin : nameIn "s".toList e.1 = some n := (nameIn_eq_some _ _ _).mpr ⟨hn, hp⟩
    have hall : ∀ e ∈ (exDisk [("s/sks-001.pgp".toList, Node.file (encoded exData [⟨[5, 5], [5]⟩]))]).nodes,
      nameIn "s".toList e.1 = none ∨ nameIn "s".toList e.1 = some (chunkName 1) := by decide
    rcases hall e hm with hz | hz
    · rw [hz] at hin; cases hin
    · rw [hz] at hin
      simp only [Option.some.injEq] at hin
      simp [hin])
  obtain ⟨loaded', h7, h8⟩ := h exData exSer (fun _ => rfl) List.reverse_perm exData_gob _ hprop "d".toList "o".toList "s".toList _
    (by decide) (by decide) (exDisk_dump _ hstale) h1 h2 names h4
  have he : loaded' = loaded := by
    have := h7.symm.trans h5
    simpa using this
  subst he
  have hin : (⟨[5, 5], [5]⟩ : Key) ∈ loaded' := h6.mem_iff.mpr (by simp)
  have hkey : (⟨[5, 5], [5]⟩ : Key) ∈ keys := (hkeys.mem _).mpr ((h8.mem _).mp hin)
  exact absurd (hids _ hkey).1 (by decide)

end Verif.Data
