import Verif.Props.Data

/-! # What the program that prepares the key files does with unusable input (C71) -/

namespace Verif.Data
open Res Verif.Cmd Verif.Pgp Verif.Pgp.Spec Verif.Deploy.Spec Spec

theorem not_ok_foldlM {α β : Type} (f : β → α → Res β) (l : List (Res α)) (b : β) (hf : ∃ x ∈ l, ∀ a, x ≠ ok a) (c : β) :
    l.foldlM (fun b x => do let a ← x; f b a) b ≠ ok c := by
  induction l generalizing b with
  | nil => obtain ⟨x, hx, -⟩ := hf; cases hx
  | cons y l ih =>
    intro h
    rw [List.foldlM_cons] at h
    obtain ⟨b', h1, h2⟩ := bind_eq_ok.mp h
    obtain ⟨a, h3, h4⟩ := bind_eq_ok.mp h1
    obtain ⟨x, hx, hn⟩ := hf
    rcases List.mem_cons.mp hx with rfl | hx
    · exact hn a h3
    · exact ih b' ⟨x, hx, hn⟩ h2

theorem orFatal_crash {r : List Op × Res Unit} (h : ∀ u, r.2 ≠ ok u) : (orFatal r).2.isCrash := by
  unfold orFatal
  split
  · exact absurd ‹_› (h _)
  · trivial
  · trivial

/-- C71: if the input is not a directory, or something in it with the name of a dump file is not a file that can be parsed, or
the keys cannot be written to the output, the program ends with an error and writes nothing. -/
theorem C71_unusable_dump (L : Lib) (d : Disk) (hd : Proper d) (limit : Nat) (D O : Path) (r : Bool) (hD : D ≠ [])
    (hO : O ≠ [])
    (hbad : entry d D ≠ some .dir ∨ entry d O ≠ some .dir ∨ entry d (join O fullName) = some .dir ∨
      ∃ n node, IsName n ∧ ContainsDumpName n ∧ entry d (join D n) = some node ∧
        ∀ bs es, node = .file bs → L.readRing bs ≠ ok es) :
    (main L d limit ⟨"parseDump", D, O, r⟩).1 = [] ∧ (main L d limit ⟨"parseDump", D, O, r⟩).2.isCrash := by
  rw [main_parse L d limit D O r hD hO, orFatal_fst]
  have hstop : (∀ m, (do
      let files ← getSksOriginalDumpFiles d D
      analyzeKeyDump L.lower (files.map (fun f => do
        let bs ← readFile d f
        L.readRing bs))) ≠ ok m) →
      (parseSksDump L d D O).1 = [] ∧ ∀ u, (parseSksDump L d D O).2 ≠ ok u := by
    intro hc
    unfold parseSksDump
    split
    · exact absurd ‹_› (hc _)
    · exact ⟨rfl, by simp⟩
    · exact ⟨rfl, by simp⟩
  have key : (parseSksDump L d D O).1 = [] ∧ ∀ u, (parseSksDump L d D O).2 ≠ ok u := by
    by_cases hdir : entry d D = some .dir
    swap
    · refine hstop ?_
      intro m h
      obtain ⟨files, h1, -⟩ := bind_eq_ok.mp h
      obtain ⟨all, h2, -⟩ := bind_eq_ok.mp h1
      unfold readDir at h2
      unfold entry at hdir
      cases hm : mget d.nodes D with
      | none => rw [hm] at h2; cases h2
      | some node =>
        cases node with
        | file bs => rw [hm] at h2; cases h2
        | dir => exact hdir hm
    rcases hbad with h | h | h | ⟨n, node, h1, h2, h3, h4⟩
    · exact absurd hdir h
    · have hc : canCreate d O fullName = false := by
        rw [Bool.eq_false_iff]
        intro hc
        exact h ((canCreate_iff _ _ _).mp hc).1
      unfold parseSksDump
      split
      · unfold writeKeysOnDisk
        rw [hc]
        simp
      · simp
      · simp
    · have hc : canCreate d O fullName = false := by
        rw [Bool.eq_false_iff]
        intro hc
        exact ((canCreate_iff _ _ _).mp hc).2 h
      unfold parseSksDump
      split
      · unfold writeKeysOnDisk
        rw [hc]
        simp
      · simp
      · simp
    · refine hstop ?_
      intro m h
      obtain ⟨names, g1, -, g3⟩ := C73_selected d D hd hdir
      rw [g1, ok_bind] at h
      unfold analyzeKeyDump at h
      refine not_ok_foldlM (fun keys (el : List Entity) => ok (el.foldl (saveKeyIfValid L.lower) keys)) _ _ ?_ m h
      refine ⟨_, List.mem_map.mpr ⟨join D n, List.mem_map.mpr ⟨n, (g3 n).mpr ⟨h1, h2, by rw [h3]; rfl⟩, rfl⟩, rfl⟩, ?_⟩
      intro es he
      obtain ⟨bs, e1, e2⟩ := bind_eq_ok.mp he
      unfold readFile at e1
      unfold entry at h3
      rw [h3] at e1
      cases node with
      | file b => simp only [ok.injEq] at e1; subst e1; exact h4 b es rfl e2
      | dir => cases e1
  exact ⟨key.1, orFatal_crash key.2⟩

/-- C71: if the newest key of some address cannot be serialized, the program ends with an error. But the output has been
emptied by then. -/
theorem C71_unserializable (L : Lib) (horder : Enumerates L.order) (d : Disk) (hd : Proper d) (limit : Nat) (D O : Path)
    (r : Bool) (hD0 : D ≠ []) (hO0 : O ≠ []) (dump : List (Path × List Entity)) (hD : entry d D = some .dir)
    (hO : entry d O = some .dir) (hfull : entry d (join O fullName) ≠ some .dir)
    (hdump : DumpIs L d D ContainsDumpName dump) (email : Str) (he : email ≠ []) (e : Entity)
    (hnew : Newest L.lower (dump.map (·.2)).flatten email e) (hbad : ∀ bs, L.serialize { e with subkeys := [] } ≠ ok bs) :
    (main L d limit ⟨"parseDump", D, O, r⟩).2.isCrash ∧
    ∃ ops, (main L d limit ⟨"parseDump", D, O, r⟩).1 = .create (join O fullName) :: ops := by
  rw [main_parse L d limit D O r hD0 hO0, orFatal_fst]
  obtain ⟨m, hm, -, hme⟩ := C17_newest L.lower (dump.map (·.2))
  have hcc : canCreate d O fullName = true := (canCreate_iff _ _ _).mpr ⟨hO, hfull⟩
  have hin : (email, { e with subkeys := [] }) ∈ L.order m :=
    (horder m).mem_iff.mpr (((hme email).1 _).mpr ⟨he, e, hnew, rfl⟩)
  have hloop : ∀ (p : Path) (l : List (Str × Entity)) (done : List Key), (email, { e with subkeys := [] }) ∈ l →
      ∀ u, (writeKeys L p l done).2 ≠ ok u := by
    intro p l
    induction l with
    | nil => intro done h; cases h
    | cons x l ih =>
      intro done h u
      unfold writeKeys
      cases hx : L.serialize x.2 with
      | ok buf =>
        have h' : (email, { e with subkeys := [] }) ∈ l := by
          rcases List.mem_cons.mp h with h | h
          · rw [← h] at hx
            exact absurd hx (hbad buf)
          · exact h
        simp only
        split
        · exact ih done h' u
        · exact ih _ h' u
      | err m => simp
      | crash m => simp
  rw [parse_eq hd hD hdump hm O]
  unfold writeKeysOnDisk
  rw [if_pos hcc]
  exact ⟨orFatal_crash (hloop _ _ _ hin), _, rfl⟩

/-- C71: if the file to be split does not exist, or the output is not a directory, the program ends with an error and writes
nothing. -/
theorem C71_unsplittable (L : Lib) (d : Disk) (limit : Nat) (p S : Path) (r : Bool) (hp : p ≠ []) (hS : S ≠ [])
    (hbad : entry d p = none ∨ entry d S ≠ some .dir ∨ entry d (join S (chunkName 0)) = some .dir) :
    (main L d limit ⟨"genChunks", p, S, r⟩).1 = [] ∧ (main L d limit ⟨"genChunks", p, S, r⟩).2.isCrash := by
  rw [main_chunks L d limit p S r hp hS, orFatal_fst]
  have key : (splitFullDumpIntoChunks L d limit p S).1 = [] ∧ ∀ u, (splitFullDumpIntoChunks L d limit p S).2 ≠ ok u := by
    unfold splitFullDumpIntoChunks
    cases hm : mget d.nodes p with
    | none => simp
    | some node =>
      have hc : canCreate d S (chunkName 0) = false := by
        rw [Bool.eq_false_iff]
        intro hc
        have := (canCreate_iff _ _ _).mp hc
        rcases hbad with h | h | h
        · unfold entry at h; rw [hm] at h; cases h
        · exact h this.1
        · exact this.2 h
      have : ∀ ending keys, splitLoop L d limit S ending keys none 0 0 = ([], err "failed to create chunk") := by
        intro ending keys
        unfold splitLoop
        simp [hc]
      simp only [this]
      split <;> simp
  exact ⟨key.1, orFatal_crash key.2⟩

/-- C71: if what is to be split is a directory, or is not entirely an encoding of keys, the program ends with an error. But
the first chunk file has been emptied by then. -/
theorem C71_split_error (L : Lib) (d : Disk) (limit : Nat) (p S : Path) (r : Bool) (hp : p ≠ []) (hS : S ≠ [])
    (hpc : p ≠ join S (chunkName 0)) (hSd : entry d S = some .dir) (hc0 : entry d (join S (chunkName 0)) ≠ some .dir)
    (hbad : entry d p = some .dir ∨ ∃ bs, entry d p = some (.file bs) ∧ ∀ u, (L.decode bs).2 ≠ ok u) :
    (main L d limit ⟨"genChunks", p, S, r⟩).2.isCrash ∧
    ∃ ops, (main L d limit ⟨"genChunks", p, S, r⟩).1 = .create (join S (chunkName 0)) :: ops := by
  rw [main_chunks L d limit p S r hp hS, orFatal_fst]
  have hcc : canCreate d S (chunkName 0) = true := (canCreate_iff _ _ _).mpr ⟨hSd, hc0⟩
  have hloop : ∀ (ending : Res Unit), (∀ u, ending ≠ ok u) → ∀ (keys : List Key) cur written num, ∀ u,
      (splitLoop L d limit S ending keys cur written num).2 ≠ ok u := by
    intro ending he keys
    induction keys with
    | nil =>
      intro cur written num u
      unfold splitLoop
      simp only
      split
      · simp
      · exact he u
    | cons k ks ih =>
      intro cur written num u
      unfold splitLoop
      simp only
      split
      · simp
      · exact ih _ _ _ u
  have hfirst : ∀ ending keys, ∃ ops, (splitLoop L d limit S ending keys none 0 0).1 = .create (join S (chunkName 0)) :: ops := by
    intro ending keys
    unfold splitLoop
    cases keys <;> simp [hcc]
  have hrd : readFile (apply d (.create (join S (chunkName 0)))) p = readFile d p := by
    unfold readFile
    have := entry_create d (join S (chunkName 0)) p
    rw [if_neg hpc] at this
    unfold entry at this
    rw [this]
  have key : (∃ ending keys, (∀ u, ending ≠ ok u) ∧
      splitFullDumpIntoChunks L d limit p S = splitLoop L d limit S ending keys none 0 0) := by
    unfold splitFullDumpIntoChunks
    rw [hrd]
    unfold entry at hbad
    unfold readFile
    rcases hbad with h | ⟨bs, h, hb⟩
    · rw [h]
      exact ⟨_, _, by simp, rfl⟩
    · rw [h]
      exact ⟨_, _, hb, rfl⟩
  obtain ⟨ending, keys, h1, h2⟩ := key
  rw [h2]
  exact ⟨orFatal_crash (hloop ending h1 keys none 0 0), hfirst ending keys⟩

/-- C71: a server ends with a message if its key directory is not one, or contains a directory among the files it loads. -/
theorem C71_server_unusable (L : Lib) (d : Disk) (S : Path) (n : Int)
    (hbad : entry d S ≠ some .dir ∨ ∃ all files f, getAllFiles d S = ok all ∧ Cmd.getSksFiles all n = ok files ∧ f ∈ files ∧
      entry d f = some .dir) : (serverKeys L d S n).isCrash := by
  have hfatal : ∀ {α : Type} (x : Res α), (∀ a, x ≠ ok a) → (Client.orFatal x).isCrash := by
    intro α x hx
    cases x with
    | ok a => exact absurd rfl (hx a)
    | err m => trivial
    | crash m => trivial
  have hb : ∀ {α β : Type} (x : Res α) (f : α → Res β), x.isCrash → (x >>= f).isCrash := by
    intro α β x f hx
    cases x with
    | ok a => exact absurd hx (by simp)
    | err m => exact absurd hx (by simp)
    | crash m => trivial
  unfold serverKeys
  rcases hbad with h | ⟨all, files, f, h1, h2, h3, h4⟩
  · refine hb _ _ (hfatal _ ?_)
    intro all h1
    obtain ⟨l, h2, -⟩ := bind_eq_ok.mp h1
    unfold readDir at h2
    unfold entry at h
    cases hm : mget d.nodes S with
    | none => rw [hm] at h2; cases h2
    | some node =>
      cases node with
      | file bs => rw [hm] at h2; cases h2
      | dir => exact h hm
  · rw [h1]
    show (Client.orFatal (ok all) >>= _).isCrash
    rw [show Client.orFatal (ok all) = ok all from rfl, ok_bind, h2, ok_bind]
    refine hfatal _ ?_
    intro ks
    unfold Pgp.loadKeysFromDisk
    refine not_ok_foldlM (fun keys (k : List Key) => ok (keys ++ k)) _ _ ?_ ks
    refine ⟨_, List.mem_map.mpr ⟨f, h3, rfl⟩, ?_⟩
    intro a ha
    obtain ⟨bs, e1, -⟩ := bind_eq_ok.mp ha
    unfold readFile at e1
    unfold entry at h4
    rw [h4] at e1
    cases e1

/-- A dump whose first file is a directory meets the hypotheses of `C71_unusable_dump`. -/
example : IsName "sks-dump-0000.pgp".toList ∧ ContainsDumpName "sks-dump-0000.pgp".toList ∧
    entry ⟨[("d".toList, .dir), ("d/sks-dump-0000.pgp".toList, .dir)]⟩ (join "d".toList "sks-dump-0000.pgp".toList) =
      some .dir := by
  refine ⟨by unfold IsName; decide, ⟨[], "0000".toList, [], by decide, by decide, by decide⟩, by decide⟩

/-- The program with a dump of two keys that cannot be serialized. -/
example : (main { exData with serialize := fun _ => err "no" } (exDisk []) hundredMb
    ⟨"parseDump", "d".toList, "o".toList, false⟩).2.isCrash := by
  have h := exDisk_dump [] (by simp)
  refine (C71_unserializable { exData with serialize := fun _ => err "no" } List.reverse_perm (exDisk [])
    (by unfold Proper; decide) hundredMb "d".toList "o".toList false (by decide) (by decide) _ (by decide) (by decide)
    (by decide) ⟨h.sorted, h.mem, h.all⟩ [7, 1] (by simp) (entityOf [7, 1]) ?_ (by simp)).1
  refine ⟨[], [entityOf [9, 1]], rfl, ⟨rfl, Or.inl ⟨by decide, rfl⟩⟩, by simp, ?_⟩
  intro x hx _
  simp only [List.mem_singleton] at hx
  subst hx
  decide

/-- A directory given as the file to be split. -/
example : let d : Disk := ⟨[("d".toList, .dir), ("s".toList, .dir)]⟩
    "d".toList ≠ join "s".toList (chunkName 0) ∧ entry d "s".toList = some .dir ∧
    entry d (join "s".toList (chunkName 0)) ≠ some .dir ∧ entry d "d".toList = some .dir := by
  decide +kernel

end Verif.Data
