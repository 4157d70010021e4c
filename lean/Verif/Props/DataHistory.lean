import Verif.Props.Data

/-! # C72: interrupted and repeated preparation of the key files -/

namespace Verif.Data
open Res Verif.Cmd Verif.Pgp Verif.Pgp.Spec Verif.Deploy.Spec Spec

/-- The path that a write concerns. -/
def target : Op → Path
  | .create p => p
  | .append p _ => p

theorem entry_applyAll_other (d : Disk) (ops : List Op) (p : Path) (h : ∀ o ∈ ops, target o ≠ p) :
    entry (applyAll d ops) p = entry d p := by
  induction ops generalizing d with
  | nil => rfl
  | cons o ops ih =>
    rw [applyAll_cons, ih _ (fun o ho => h o (List.mem_cons_of_mem _ ho))]
    have h0 := h o (by simp)
    unfold entry
    cases o with
    | create q =>
      show mget (mset d.nodes q _) p = _
      rw [mget_mset, if_neg (fun e => h0 e.symm)]
    | append q bs =>
      show mget (mset d.nodes q _) p = _
      rw [mget_mset, if_neg (fun e => h0 e.symm)]

/-- Writes leave files behind. -/
theorem entry_applyAll_file (d : Disk) (ops : List Op) (p : Path) :
    entry (applyAll d ops) p = entry d p ∨ ∃ bs, entry (applyAll d ops) p = some (.file bs) := by
  induction ops generalizing d with
  | nil => exact Or.inl rfl
  | cons o ops ih =>
    rw [applyAll_cons]
    have hstep : entry (apply d o) p = entry d p ∨ ∃ bs, entry (apply d o) p = some (.file bs) := by
      unfold entry
      cases o with
      | create q =>
        show mget (mset d.nodes q _) p = _ ∨ ∃ bs, mget (mset d.nodes q _) p = _
        rw [mget_mset]
        split
        · exact Or.inr ⟨_, rfl⟩
        · exact Or.inl rfl
      | append q bs =>
        show mget (mset d.nodes q _) p = _ ∨ ∃ bs, mget (mset d.nodes q _) p = _
        rw [mget_mset]
        split
        · exact Or.inr ⟨_, rfl⟩
        · exact Or.inl rfl
    rcases ih (apply d o) with h | h
    · rcases hstep with h' | ⟨bs, h'⟩
      · exact Or.inl (h.trans h')
      · exact Or.inr ⟨bs, h.trans h'⟩
    · exact Or.inr h

theorem writeKeys_targets (L : Lib) (p : Path) (m : List (Str × Entity)) (done : List Key) :
    ∀ o ∈ (writeKeys L p m done).1, target o = p := by
  induction m generalizing done with
  | nil => intro o ho; simp [writeKeys] at ho
  | cons x m ih =>
    intro o ho
    unfold writeKeys at ho
    split at ho
    · split at ho
      · exact ih done o ho
      · rcases List.mem_cons.mp ho with rfl | ho
        · rfl
        · exact ih _ o ho
    · simp at ho
    · simp at ho

theorem splitLoop_targets (L : Lib) (d : Disk) (limit : Nat) (out : Path) (ending : Res Unit) (keys : List Key) :
    ∀ (cur : Option (List Key)) (written num : Nat), (cur.isSome → canCreate d out (chunkName (num - 1))) →
      ∀ o ∈ (splitLoop L d limit out ending keys cur written num).1, ∃ i, target o = join out (chunkName i) ∧
        canCreate d out (chunkName i) := by
  induction keys with
  | nil =>
    intro cur written num hcur o ho
    unfold splitLoop at ho
    dsimp only at ho
    split at ho
    · simp at ho
    · rename_i hn
      split at ho
      · rename_i hnew
        rw [hnew] at hn
        simp only [Bool.true_and, Bool.not_eq_true', Bool.not_eq_false] at hn
        simp only [List.mem_singleton] at ho
        subst ho
        exact ⟨num, rfl, hn⟩
      · simp at ho
  | cons k keys ih =>
    intro cur written num hcur o ho
    unfold splitLoop at ho
    dsimp only at ho
    split at ho
    · simp at ho
    · rename_i hn
      by_cases hnew : (cur.isNone || decide (limit < written)) = true
      · rw [hnew] at hn
        simp only [Bool.true_and, Bool.not_eq_true', Bool.not_eq_false] at hn
        simp only [hnew, if_true] at ho
        rw [List.mem_append, List.mem_singleton, List.mem_cons] at ho
        rcases ho with rfl | rfl | ho
        · exact ⟨num, rfl, hn⟩
        · exact ⟨num, by simp [target], hn⟩
        · exact ih _ _ _ (fun _ => by simpa using hn) o ho
      · have hs : cur.isSome := by
          cases cur with
          | none => simp at hnew
          | some c => rfl
        simp only [hnew, Bool.false_eq_true, if_false] at ho
        rw [List.nil_append, List.mem_cons] at ho
        rcases ho with rfl | ho
        · exact ⟨num - 1, rfl, hcur hs⟩
        · exact ih _ _ _ (fun _ => hcur hs) o ho

theorem main_targets (L : Lib) (d : Disk) (limit : Nat) (f : Flags) : ∀ o ∈ (main L d limit f).1,
    Output f.out (target o) ∧ entry d (target o) ≠ some .dir := by
  intro o ho
  unfold main at ho
  split at ho
  · simp at ho
  · split at ho
    · rw [orFatal_fst] at ho
      have hsplit : ∀ keys ending, o ∈ (splitLoop L d limit f.out ending keys none 0 0).1 →
          Output f.out (target o) ∧ entry d (target o) ≠ some .dir := by
        intro keys ending hin
        obtain ⟨i, h1, h2⟩ := splitLoop_targets L d limit f.out ending keys none 0 0 (by simp) o hin
        rw [h1]
        exact ⟨Or.inr ⟨i, rfl⟩, ((canCreate_iff _ _ _).mp h2).2⟩
      unfold splitFullDumpIntoChunks at ho
      split at ho
      · simp at ho
      · split at ho <;> exact hsplit _ _ ho
    · split at ho
      · rw [orFatal_fst] at ho
        simp [generateDB] at ho
      · split at ho
        · rw [orFatal_fst] at ho
          unfold parseSksDump at ho
          split at ho
          · rename_i m _
            unfold writeKeysOnDisk at ho
            split at ho
            · rename_i hcan
              have ht : target o = join f.out fullName := by
                rcases List.mem_cons.mp ho with rfl | ho
                · rfl
                · exact writeKeys_targets L _ _ _ o ho
              rw [ht]
              exact ⟨Or.inl rfl, ((canCreate_iff _ _ _).mp hcan).2⟩
            · simp at ho
          · simp at ho
          · simp at ho
        · simp at ho

/-- One run, complete or not, as a sequence of writes. -/
theorem invoke_eq (L : Lib) (limit : Nat) (d : Disk) (i : Invocation) : ∃ ops, invoke L limit d i = applyAll d ops ∧
    ∀ o ∈ ops, Output i.flags.out (target o) ∧ entry d (target o) ≠ some .dir := by
  unfold invoke
  split
  · exact ⟨_, rfl, main_targets _ d limit i.flags⟩
  · exact ⟨_, rfl, fun o ho => main_targets _ d limit i.flags o (List.mem_of_mem_take ho)⟩

/-- C72: no sequence of runs, complete or interrupted, changes anything but the files `sks-full.pgp` and `sks-000.pgp`,
`sks-001.pgp`, ... in the output directories; it neither makes nor removes directories, and removes no file. -/
theorem C72_frame (L : Lib) (limit : Nat) (d : Disk) (runs : List Invocation) :
    (∀ p, (∀ r ∈ runs, ¬ Output r.flags.out p) → entry (history L limit d runs) p = entry d p) ∧
    (∀ p, entry (history L limit d runs) p = some .dir ↔ entry d p = some .dir) ∧
    (∀ p, (entry d p).isSome → (entry (history L limit d runs) p).isSome) := by
  induction runs generalizing d with
  | nil => exact ⟨fun _ _ => rfl, fun _ => Iff.rfl, fun _ h => h⟩
  | cons r runs ih =>
    obtain ⟨ops, he, hops⟩ := invoke_eq L limit d r
    have hh : history L limit d (r :: runs) = history L limit (applyAll d ops) runs := by
      unfold history
      rw [List.foldl_cons, he]
    rw [hh]
    obtain ⟨h1, h2, h3⟩ := ih (applyAll d ops)
    refine ⟨?_, ?_, ?_⟩
    · intro p hp
      rw [h1 p (fun r hr => hp r (List.mem_cons_of_mem _ hr))]
      apply entry_applyAll_other
      intro o ho hot
      exact hp r (by simp) (hot ▸ (hops o ho).1)
    · intro p
      rw [h2 p]
      constructor
      · intro hdir
        rcases entry_applyAll_file d ops p with h | ⟨bs, h⟩
        · rw [← h]; exact hdir
        · rw [h] at hdir; cases hdir
      · intro hdir
        rw [entry_applyAll_other d ops p (fun o ho hot => (hops o ho).2 (by rw [hot]; exact hdir))]
        exact hdir
    · intro p hp
      apply h3
      rcases entry_applyAll_file d ops p with h | ⟨bs, h⟩
      · rw [h]; exact hp
      · rw [h]; rfl

theorem proper_history (L : Lib) (limit : Nat) {d : Disk} (hd : Proper d) (runs : List Invocation) :
    Proper (history L limit d runs) := by
  induction runs generalizing d with
  | nil => exact hd
  | cons r runs ih =>
    obtain ⟨ops, he, -⟩ := invoke_eq L limit d r
    unfold history
    rw [List.foldl_cons, he]
    exact ih (proper_applyAll hd ops)

theorem dumpName_ne {n : Path} (h : ContainsDumpName n) : 'd' ∈ n := by
  obtain ⟨a, ds, b, -, -, rfl⟩ := h
  simp

theorem dumpName_output {n out D : Path} (hn : IsName n) (h : ContainsDumpName n) : ¬ Output out (join D n) := by
  rintro (he | ⟨i, he⟩)
  · have := (join_inj hn.2 fullName_name.2 he).2
    have hd := dumpName_ne h
    rw [this] at hd
    exact absurd hd (by decide)
  · have := (join_inj hn.2 (chunkName_name i).2 he).2
    have hd := dumpName_ne h
    rw [this, chunkName_eq] at hd
    rcases List.mem_append.mp hd with hd | hd
    · rcases List.mem_append.mp hd with hd | hd
      · exact absurd hd (by decide)
      · exact absurd (chunkDigits_digit hd) (by decide)
    · exact absurd hd (by decide)

/-- No sequence of runs changes the dump. -/
theorem dump_history {L : Lib} {limit : Nat} {d : Disk} {D : Path} {dump : List (Path × List Entity)}
    (h : DumpIs L d D ContainsDumpName dump) (runs : List Invocation) :
    DumpIs L (history L limit d runs) D ContainsDumpName dump := by
  have hsame : ∀ n, IsName n → ContainsDumpName n → entry (history L limit d runs) (join D n) = entry d (join D n) :=
    fun n hn hc => (C72_frame L limit d runs).1 _ (fun r _ => dumpName_output hn hc)
  refine ⟨h.sorted, ?_, ?_⟩
  · intro n es
    rw [h.mem]
    constructor
    · rintro ⟨h1, h2, h3⟩
      exact ⟨h1, h2, by rw [hsame n h1 h2]; exact h3⟩
    · rintro ⟨h1, h2, h3⟩
      exact ⟨h1, h2, by rw [hsame n h1 h2] at h3; exact h3⟩
  · intro n h1 h2 h3
    rw [hsame n h1 h2] at h3
    exact h.all n h1 h2 h3

/-- C72: whatever runs came before, complete or interrupted, importing the dump and splitting the result gives chunk files that
hold the keys of the dump. -/
theorem C72_any_history (L : Lib) (ser : Entity → List Byte) (hser : ∀ e, L.serialize e = ok (ser e))
    (horder : Enumerates L.order) (hgob : GobFaithful L) (limit : Nat) (d : Disk) (hd : Proper d) (D O S : Path)
    (dump : List (Path × List Entity)) (hD0 : D ≠ []) (hO0 : O ≠ []) (hS0 : S ≠ []) (hD : entry d D = some .dir)
    (hO : entry d O = some .dir) (hS : entry d S = some .dir) (hfull : entry d (join O fullName) ≠ some .dir)
    (hdirs : ∀ i, entry d (join S (chunkName i)) ≠ some .dir) (hdump : DumpIs L d D ContainsDumpName dump)
    (runs : List Invocation) :
    let d0 := history L limit d runs
    let d1 := after L d0 limit (parseFlags D O)
    let d2 := after L d1 limit (chunkFlags (join O fullName) S)
    (main L d0 limit (parseFlags D O)).2 = ok () ∧ (main L d1 limit (chunkFlags (join O fullName) S)).2 = ok () ∧
    ∃ keys, KeysOf L.lower ser (dump.map (·.2)) keys ∧ Holds L d2 (join O fullName) keys ∧
      ∃ chunks : List (List Key), chunks.flatten = keys ∧ ∀ i (h : i < chunks.length), Holds L d2 (join S (chunkName i)) chunks[i] := by
  intro d0 d1 d2
  obtain ⟨-, hdir, -⟩ := C72_frame L limit d runs
  obtain ⟨h1, h2, keys, hk, hw, hc, -, -⟩ := C71_loaded L ser hser horder hgob limit d0 (proper_history L limit hd runs) D O S dump
    hD0 hO0 hS0 ((hdir D).mpr hD) ((hdir O).mpr hO) ((hdir S).mpr hS) (fun h => hfull ((hdir _).mp h))
    (fun i h => hdirs i ((hdir _).mp h)) (dump_history hdump runs)
  refine ⟨h1, h2, keys, hk, ?_, _, (C52_content limit keys (ok ())).1, hc.holds⟩
  unfold Holds
  have hneq : ∀ i, join O fullName ≠ join S (chunkName i) := fun i he =>
    chunkName_ne_full i (join_inj fullName_name.2 (chunkName_name i).2 he).2.symm
  rw [hc.rest _ (fun i _ => hneq i)]
  exact hw.holds

theorem all_length_le (limit : Nat) (keys : List Key) (m : Nat) (chunks : List (List Key))
    (h : chunks = Chunks.all ((keys.take m).foldl (addKey limit) ⟨[], none, 0⟩) ∨
      chunks = Chunks.all (newChunk limit ((keys.take m).foldl (addKey limit) ⟨[], none, 0⟩))) :
    chunks.length ≤ (splitDump limit keys (ok ())).1.length := by
  rw [splitDump_eq]
  have h1 : (Chunks.all (newChunk limit ((keys.take m).foldl (addKey limit) ⟨[], none, 0⟩))).length ≤
      (Chunks.all (newChunk limit (keys.foldl (addKey limit) ⟨[], none, 0⟩))).length := by
    have := fold_all_length limit (keys.drop m) ((keys.take m).foldl (addKey limit) ⟨[], none, 0⟩)
    rw [← List.foldl_append, List.take_append_drop] at this
    exact this
  rcases h with rfl | rfl
  · exact le_trans (newChunk_all_length _ _) h1
  · exact h1

/-- The state of the splitting when it is interrupted. -/
theorem interrupted_chunks {L : Lib} (hgob : GobFaithful L) (d : Disk) (limit : Nat) (path S : Path) (keys : List Key)
    (hp0 : path ≠ []) (hS0 : S ≠ [])
    (hin : Holds L d path keys) (hpath : ∀ i, path ≠ join S (chunkName i)) (hS : entry d S = some .dir)
    (hdirs : ∀ i, entry d (join S (chunkName i)) ≠ some .dir) (n : Nat) :
    ∃ m chunks, m ≤ keys.length ∧ Chunked L S chunks d (interrupted L d limit (chunkFlags path S) n) ∧
      (chunks = Chunks.all ((keys.take m).foldl (addKey limit) ⟨[], none, 0⟩) ∨
        chunks = Chunks.all (newChunk limit ((keys.take m).foldl (addKey limit) ⟨[], none, 0⟩))) := by
  obtain ⟨-, -, h3⟩ := split_run L d limit path S _ keys (ok ()) hin (hgob keys) (hpath 0)
    (fun i _ => (canCreate_iff _ _ _).mpr ⟨hS, hdirs i⟩)
  have : interrupted L d limit (chunkFlags path S) n =
      applyAll d ((splitFullDumpIntoChunks L d limit path S).1.take n) := by
    unfold interrupted chunkFlags
    rw [main_chunks L d limit path S false hp0 hS0, orFatal_fst]
  rw [this]
  exact h3 n

theorem all_getElem (limit : Nat) (keys : List Key) (m : Nat) (chunks : List (List Key))
    (h : chunks = Chunks.all ((keys.take m).foldl (addKey limit) ⟨[], none, 0⟩) ∨
      chunks = Chunks.all (newChunk limit ((keys.take m).foldl (addKey limit) ⟨[], none, 0⟩))) (i : Nat)
    (hi : i + 1 < chunks.length) : chunks[i]? = (splitDump limit keys (ok ())).1[i]? := by
  have hcur : ∀ c : Chunks, i + 1 < (Chunks.all c).length → i < c.finished.length := by
    intro c hc
    unfold Chunks.all at hc
    rw [List.length_append] at hc
    have : c.current.toList.length ≤ 1 := by cases c.current <;> simp
    omega
  have hget : ∀ c c' : Chunks, c.finished <+: c'.finished → i < c.finished.length →
      (Chunks.all c)[i]? = (Chunks.all c')[i]? := by
    intro c c' hpre hlt
    unfold Chunks.all
    obtain ⟨t, ht⟩ := hpre
    rw [← ht, List.getElem?_append_left hlt, List.append_assoc, List.getElem?_append_left hlt]
  rw [splitDump_eq]
  have hfold : (keys.take m ++ keys.drop m).foldl (addKey limit) ⟨[], none, 0⟩ = keys.foldl (addKey limit) ⟨[], none, 0⟩ := by
    rw [List.take_append_drop]
  rw [List.foldl_append] at hfold
  have hpre1 : ((keys.take m).foldl (addKey limit) ⟨[], none, 0⟩).finished <+:
      (newChunk limit (keys.foldl (addKey limit) ⟨[], none, 0⟩)).finished := by
    rw [← hfold]
    exact (fold_prefix limit _ _).trans (newChunk_prefix limit _)
  rcases h with rfl | rfl
  · exact hget _ _ hpre1 (hcur _ hi)
  · refine hget _ _ ?_ (hcur _ hi)
    rw [← hfold]
    cases hdrop : keys.drop m with
    | nil => exact List.prefix_refl _
    | cons k ks =>
      rw [List.foldl_cons]
      exact (show (newChunk limit _).finished <+: (addKey limit _ k).finished from List.prefix_refl _).trans
        ((fold_prefix limit ks _).trans (newChunk_prefix limit _))

/-- C72: splitting that is interrupted after any number of writes has written no other files than the chunks of the complete
run, the first ones of them; all but the last are complete, and together they hold a prefix of the keys. -/
theorem C72_interrupted_files {L : Lib} (hgob : GobFaithful L) (d : Disk) (limit : Nat) (path S : Path) (keys : List Key)
    (hp0 : path ≠ []) (hS0 : S ≠ []) (hin : Holds L d path keys) (hpath : ∀ i, path ≠ join S (chunkName i))
    (hS : entry d S = some .dir) (hdirs : ∀ i, entry d (join S (chunkName i)) ≠ some .dir) (n : Nat) :
    ∃ chunks full m, Chunked L S chunks d (interrupted L d limit (chunkFlags path S) n) ∧
      Chunked L S full d (after L d limit (chunkFlags path S)) ∧ full.flatten = keys ∧ chunks.flatten = keys.take m ∧
      chunks.length ≤ full.length ∧ ∀ i, i + 1 < chunks.length → chunks[i]? = full[i]? := by
  obtain ⟨m, chunks, hm, hc, hor⟩ := interrupted_chunks hgob d limit path S keys hp0 hS0 hin hpath hS hdirs n
  obtain ⟨h4, h5⟩ := chunk_run hgob d limit path S keys hin hpath hS hdirs
  refine ⟨chunks, (splitDump limit keys (ok ())).1, m, hc, ?_, (C52_content limit keys (ok ())).1, ?_,
    all_length_le limit keys m chunks hor, all_getElem limit keys m chunks hor⟩
  · unfold after chunkFlags
    rw [main_chunks L d limit path S false hp0 hS0, orFatal_fst]
    exact h5
  · obtain ⟨h1, h2⟩ := addKey_flatten (limit := limit) (keys.take m) ⟨[], none, 0⟩ (fun _ => rfl)
    rcases hor with rfl | rfl
    · rw [h1]; simp [Chunks.all]
    · rw [h2]; simp [Chunks.all]

/-- C72: splitting that is interrupted after any number of writes leaves chunks that hold a prefix of the keys; a server
started on the directory, if there was nothing else in it, loads exactly these keys and reports no error. -/
theorem C72_interrupted_chunks {L : Lib} (hgob : GobFaithful L) (d : Disk) (hd : Proper d) (limit : Nat) (path S : Path)
    (keys : List Key) (hp0 : path ≠ []) (hS0 : S ≠ []) (hin : Holds L d path keys) (hpath : ∀ i, path ≠ join S (chunkName i))
    (hS : entry d S = some .dir) (hempty : ∀ n, IsName n → entry d (join S n) = none) (n : Nat) :
    ∃ m names loaded, m ≤ keys.length ∧ readDir (interrupted L d limit (chunkFlags path S) n) S = ok names ∧
      serverKeys L (interrupted L d limit (chunkFlags path S) n) S names.length = ok loaded ∧
      loaded.Perm (keys.take m) := by
  obtain ⟨m, chunks, hm, hc, hor⟩ := interrupted_chunks hgob d limit path S keys hp0 hS0 hin hpath hS
    (fun i => by rw [hempty _ (chunkName_name i)]; simp) n
  have hflat : chunks.flatten = keys.take m := by
    obtain ⟨h1, h2⟩ := addKey_flatten (limit := limit) (keys.take m) ⟨[], none, 0⟩ (fun _ => rfl)
    rcases hor with rfl | rfl
    · rw [h1]; simp [Chunks.all]
    · rw [h2]; simp [Chunks.all]
  have hprop : Proper (interrupted L d limit (chunkFlags path S) n) := proper_applyAll hd _
  obtain ⟨sorted, hperm, -, hdir, hk⟩ := chunked_server hgob hprop hS hc (fun i _ => join_ne_self _ _) [] (by simp) (by simp)
    (by intro n hn h; rw [hempty n hn] at h; cases h)
  have hlen : (Deploy.chunkFiles chunks).length = chunks.length := by simp [Deploy.chunkFiles]
  have hs : sorted.length = chunks.length := by
    rw [hperm.length_eq, List.append_nil, hlen]
  unfold serverDir at hdir
  rw [bind_eq_ok] at hdir
  obtain ⟨names, hnames, he⟩ := hdir
  have hl : names.length = sorted.length := by
    have := congrArg List.length (ok.inj he)
    simpa using this
  refine ⟨m, names, _, hm, hnames, hk _ (by rw [hl, hs]; simp), ?_⟩
  unfold keysIn
  rw [List.take_of_length_le (by rw [hl])]
  refine (List.Perm.flatMap_right _ hperm).trans ?_
  rw [List.append_nil, ← hflat]
  have h := Deploy.chunkFiles_keys chunks
  unfold keysIn at h
  rw [List.take_of_length_le (by rw [hlen])] at h
  rw [h]

/-- C72: running the splitting again after an interruption leaves the disk as if it had not been interrupted. -/
theorem C72_rerun_chunks {L : Lib} (hgob : GobFaithful L) (d : Disk) (limit : Nat) (path S : Path) (keys : List Key)
    (hp0 : path ≠ []) (hS0 : S ≠ []) (hin : Holds L d path keys) (hpath : ∀ i, path ≠ join S (chunkName i))
    (hS : entry d S = some .dir) (hdirs : ∀ i, entry d (join S (chunkName i)) ≠ some .dir) (n : Nat) :
    Same (after L (interrupted L d limit (chunkFlags path S) n) limit (chunkFlags path S))
      (after L d limit (chunkFlags path S)) ∧
    (main L (interrupted L d limit (chunkFlags path S) n) limit (chunkFlags path S)).2 = ok () := by
  obtain ⟨m, chunks, -, hc, hor⟩ := interrupted_chunks hgob d limit path S keys hp0 hS0 hin hpath hS hdirs n
  have hle := all_length_le limit keys m chunks hor
  have hrun : ∀ d', Holds L d' path keys → entry d' S = some .dir → (∀ i, entry d' (join S (chunkName i)) ≠ some .dir) →
      Chunked L S (splitDump limit keys (ok ())).1 d' (after L d' limit (chunkFlags path S)) ∧
      (main L d' limit (chunkFlags path S)).2 = ok () := by
    intro d' h1 h2 h3
    obtain ⟨h4, h5⟩ := chunk_run hgob d' limit path S keys h1 hpath h2 h3
    have hm : main L d' limit (chunkFlags path S) = splitFullDumpIntoChunks L d' limit path S := by
      unfold chunkFlags
      rw [main_chunks L d' limit path S false hp0 hS0, orFatal_of_ok h4]
    refine ⟨?_, by rw [hm]; exact h4⟩
    unfold after
    rw [hm]
    exact h5
  have hd' := hrun (interrupted L d limit (chunkFlags path S) n)
    (by unfold Holds; rw [hc.rest path (fun i _ => hpath i)]; exact hin)
    (by rw [hc.rest S (fun i _ => join_ne_self _ _)]; exact hS)
    (by
      intro i
      by_cases hi : i < chunks.length
      · rw [hc.holds i hi]; simp
      · rw [hc.rest _ (fun j hj he => hi (by rw [join_chunk_inj he]; exact hj))]
        exact hdirs i)
  have hd0 := hrun d hin hS hdirs
  refine ⟨?_, hd'.2⟩
  intro p
  by_cases hp : ∃ i, i < (splitDump limit keys (ok ())).1.length ∧ p = join S (chunkName i)
  · obtain ⟨i, hi, rfl⟩ := hp
    rw [hd'.1.holds i hi, hd0.1.holds i hi]
  · have hp' : ∀ i, i < (splitDump limit keys (ok ())).1.length → p ≠ join S (chunkName i) := fun i hi he => hp ⟨i, hi, he⟩
    rw [hd'.1.rest p hp', hd0.1.rest p hp', hc.rest p (fun i hi => hp' i (by omega))]

/-- C72: running the import again after an interruption leaves the disk as if it had not been interrupted, also if the runs
enumerate the keys in different orders; an import that is interrupted leaves a file that can be read and holds some of the
keys. -/
theorem C72_rerun_parse (L : Lib) (ser : Entity → List Byte) (hser : ∀ e, L.serialize e = ok (ser e))
    (horder : Enumerates L.order) (limit : Nat) (d : Disk) (hd : Proper d) (D O : Path) (dump : List (Path × List Entity))
    (hD0 : D ≠ []) (hO0 : O ≠ []) (hD : entry d D = some .dir) (hO : entry d O = some .dir)
    (hfull : entry d (join O fullName) ≠ some .dir) (hdump : DumpIs L d D ContainsDumpName dump)
    (order : List (Str × Entity) → List (Str × Entity)) (n : Nat) :
    Same (after (anew L order) (interrupted L d limit (parseFlags D O) n) limit (parseFlags D O))
      (after (anew L order) d limit (parseFlags D O)) ∧
    (main (anew L order) (interrupted L d limit (parseFlags D O) n) limit (parseFlags D O)).2 = ok () ∧
    ∃ keys, KeysOf L.lower ser (dump.map (·.2)) keys ∧ Holds L (after L d limit (parseFlags D O)) (join O fullName) keys ∧
      Holds L (interrupted L d limit (parseFlags D O) (n + 1)) (join O fullName) (keys.take n) := by
  have hmain : ∀ (L' : Lib) (d' : Disk), (main L' d' limit (parseFlags D O)).1 = (parseSksDump L' d' D O).1 := by
    intro L' d'
    unfold parseFlags
    rw [main_parse L' d' limit D O false hD0 hO0, orFatal_fst]
  -- the interrupted disk
  have hone : interrupted L d limit (parseFlags D O) n =
      history L limit d [⟨parseFlags D O, L.order, some n⟩] := rfl
  obtain ⟨hframe, hdir, -⟩ := C72_frame L limit d [⟨parseFlags D O, L.order, some n⟩]
  rw [← hone] at hframe hdir
  have hd' : Proper (interrupted L d limit (parseFlags D O) n) := proper_applyAll hd _
  have hdump' : DumpIs L (interrupted L d limit (parseFlags D O) n) D ContainsDumpName dump := by
    rw [hone]; exact dump_history hdump _
  have hdumpA : ∀ d'', DumpIs L d'' D ContainsDumpName dump → DumpIs (anew L order) d'' D ContainsDumpName dump :=
    fun d'' h => ⟨h.sorted, h.mem, h.all⟩
  obtain ⟨m, hm, -, -⟩ := C17_newest L.lower (dump.map (·.2))
  have e1 := parse_eq (L := anew L order) hd hD (hdumpA _ hdump) hm O
  have e2 := parse_eq (L := anew L order) hd' ((hdir D).mpr hD) (hdumpA _ hdump') hm O
  obtain ⟨a1, a2, -⟩ := write_run (anew L order) ser hser d O m ((canCreate_iff _ _ _).mpr ⟨hO, hfull⟩)
  obtain ⟨b1, b2, -⟩ := write_run (anew L order) ser hser (interrupted L d limit (parseFlags D O) n) O m
    ((canCreate_iff _ _ _).mpr ⟨(hdir O).mpr hO, fun h => hfull ((hdir _).mp h)⟩)
  refine ⟨?_, ?_, ?_⟩
  · intro p
    unfold after
    rw [hmain, hmain, e1, e2]
    by_cases hp : p = join O fullName
    · subst hp
      rw [a2.holds, b2.holds]
    · rw [a2.rest p hp, b2.rest p hp]
      -- other paths are as before
      have hwr : ∀ o ∈ (main L d limit (parseFlags D O)).1, target o = join O fullName := by
        rw [hmain, parse_eq hd hD hdump hm O]
        intro o ho
        unfold writeKeysOnDisk at ho
        split at ho
        · rcases List.mem_cons.mp ho with rfl | ho
          · rfl
          · exact writeKeys_targets L _ _ _ o ho
        · simp at ho
      exact entry_applyAll_other d _ p (fun o ho he => hp (by rw [← he]; exact hwr o (List.mem_of_mem_take ho)))
  · unfold parseFlags
    rw [main_parse _ _ limit D O false hD0 hO0]
    have : (parseSksDump (anew L order) (interrupted L d limit (parseFlags D O) n) D O).2 = ok () := by rw [e2]; exact b1
    rw [orFatal_of_ok (u := ()) (by exact this)]
    exact this
  · obtain ⟨keys, hk, -, h2, h3⟩ := parse_run L ser hser horder d hd D O dump hD hO hfull hdump
    refine ⟨keys, hk, ?_, ?_⟩
    · unfold after
      rw [hmain]
      exact h2.holds
    · unfold interrupted
      rw [hmain]
      exact (h3 n).holds

/-- C72 as claimed: an interrupted run is noticed, in that a server started on what it left either reports an error or has all
keys. -/
def C72_Statement : Prop :=
  ∀ (L : Lib), GobFaithful L → ∀ (d : Disk), Proper d → ∀ (path S : Path) (keys : List Key), Holds L d path keys →
    (∀ i, path ≠ join S (chunkName i)) → entry d S = some .dir → (∀ n, IsName n → entry d (join S n) = none) →
    ∀ (n : Nat) (names : List Path) (loaded : List Key),
      readDir (interrupted L d hundredMb (chunkFlags path S) n) S = ok names →
      serverKeys L (interrupted L d hundredMb (chunkFlags path S) n) S names.length = ok loaded → loaded.Perm keys

/-- A disk with one imported key and an empty directory for the chunks. -/
def exImported : Disk :=
  ⟨[("o".toList, .dir), ("s".toList, .dir), (join "o".toList fullName, .file (encoded exData [⟨[5, 5], [5]⟩]))]⟩

theorem exImported_empty : ∀ n, IsName n → entry exImported (join "s".toList n) = none := by
  intro n hn
  cases h : entry exImported (join "s".toList n) with
  | none => rfl
  | some x =>
    exfalso
    obtain ⟨e, he, hp⟩ := (entry_isSome exImported (join "s".toList n)).mp (by rw [h]; rfl)
    have hin : nameIn "s".toList e.1 = some n := (nameIn_eq_some _ _ _).mpr ⟨hn, hp⟩
    have : ∀ e ∈ exImported.nodes, nameIn "s".toList e.1 = none := by decide
    rw [this e he] at hin
    cases hin

theorem exImported_path (i : Nat) : join "o".toList fullName ≠ join "s".toList (chunkName i) := by
  intro h
  exact absurd (join_inj fullName_name.2 (chunkName_name i).2 h).1 (by decide)

/-- C72 as claimed is false: before the first key is written there is an empty chunk, which loads. -/
theorem C72_refuted : ¬ C72_Statement := by
  intro h
  have hin : Holds exData exImported (join "o".toList fullName) [⟨[5, 5], [5]⟩] := by unfold Holds; decide
  have hprop : Proper exImported := by unfold Proper; decide
  have hd1 : interrupted exData exImported hundredMb (chunkFlags (join "o".toList fullName) "s".toList) 1 =
      apply exImported (.create (join "s".toList (chunkName 0))) := by decide
  have hc : Chunked exData "s".toList [[]] exImported (apply exImported (.create (join "s".toList (chunkName 0)))) :=
    chunked_create (chunked_nil exData "s".toList exImported)
  obtain ⟨sorted, hperm, -, hdir, hk⟩ := chunked_server exData_gob (proper_apply hprop _) (by decide) hc
    (fun i _ => join_ne_self _ _) [] (by simp) (by simp) (by intro n hn h; rw [exImported_empty n hn] at h; cases h)
  have hlen : sorted.length = 1 := hperm.length_eq
  unfold serverDir at hdir
  rw [bind_eq_ok] at hdir
  obtain ⟨names, hnames, he⟩ := hdir
  have hl : names.length = sorted.length := by
    have := congrArg List.length (ok.inj he)
    simpa using this
  have hload := hk names.length (by rw [hl, hlen]; decide)
  rw [← hd1] at hnames hload
  have hp := h exData exData_gob exImported hprop _ "s".toList _ hin exImported_path (by decide) exImported_empty 1 names _
    hnames hload
  have h1 := hp.length_eq
  unfold keysIn at h1
  rw [List.take_of_length_le (by rw [hl])] at h1
  have h2 := (List.Perm.flatMap_right (fun f : Path × List Key => f.2) hperm).length_eq
  rw [h2] at h1
  exact absurd h1 (by decide)

/-- The hypotheses of `C72_rerun_chunks` and `C72_interrupted_chunks` hold of this disk. -/
example : Same (after exData (interrupted exData exImported hundredMb (chunkFlags (join "o".toList fullName) "s".toList) 1)
      hundredMb (chunkFlags (join "o".toList fullName) "s".toList))
    (after exData exImported hundredMb (chunkFlags (join "o".toList fullName) "s".toList)) :=
  (C72_rerun_chunks exData_gob exImported hundredMb (join "o".toList fullName) "s".toList [⟨[5, 5], [5]⟩] (by decide) (by decide)
    (by unfold Holds; decide) exImported_path (by decide)
    (fun i => by rw [exImported_empty _ (chunkName_name i)]; simp) 1).1

/-- The hypotheses of `C72_rerun_parse` and `C72_any_history` hold of the disk with the dump. -/
example : (main (anew exData id) (interrupted exData (exDisk []) hundredMb (parseFlags "d".toList "o".toList) 1) hundredMb
    (parseFlags "d".toList "o".toList)).2 = ok () :=
  (C72_rerun_parse exData exSer (fun _ => rfl) List.reverse_perm hundredMb (exDisk []) (by unfold Proper; decide) "d".toList
    "o".toList _ (by decide) (by decide) (by decide) (by decide) (by decide) (exDisk_dump [] (by simp)) id 1).2.1

/-- After an interrupted import and an import into the wrong directory. -/
example : (main exData (history exData hundredMb (exDisk []) [⟨parseFlags "d".toList "o".toList, id, some 1⟩,
    ⟨parseFlags "d".toList "s".toList, id, none⟩]) hundredMb (parseFlags "d".toList "o".toList)).2 = ok () := by
  have hnone : ∀ i, entry (exDisk []) (join "s".toList (chunkName i)) ≠ some .dir := by
    intro i h
    obtain ⟨e, he, hp⟩ := (entry_isSome (exDisk []) (join "s".toList (chunkName i))).mp (by rw [h]; rfl)
    have hin : nameIn "s".toList e.1 = some (chunkName i) := (nameIn_eq_some _ _ _).mpr ⟨chunkName_name i, hp⟩
    have : ∀ e ∈ (exDisk []).nodes, nameIn "s".toList e.1 = none := by decide
    rw [this e he] at hin
    cases hin
  exact (C72_any_history exData exSer (fun _ => rfl) List.reverse_perm exData_gob hundredMb (exDisk []) (by unfold Proper; decide)
    "d".toList "o".toList "s".toList _ (by decide) (by decide) (by decide) (by decide) (by decide) (by decide) (by decide) hnone
    (exDisk_dump [] (by simp)) _).1

end Verif.Data
