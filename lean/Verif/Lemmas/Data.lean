import Verif.Spec.Data
import Verif.Lemmas.Deploy
import Verif.Props.Cmd

/-! # Lemmas about the preparation of the key files -/

namespace Verif.Data
open Res Verif.Cmd Verif.Pgp Verif.Pgp.Spec Verif.Deploy.Spec Spec

/-! ### Names -/

/-- The digits of a chunk name. -/
def chunkDigits (n : Nat) : List Char :=
  if n < 1000 then [digit (n / 100), digit (n / 10 % 10), digit (n % 10)] else Nat.toDigits 10 n

theorem chunkName_eq (n : Nat) : chunkName n = "sks-".toList ++ chunkDigits n ++ ".pgp".toList := rfl

theorem digit_eq {a : Nat} (h : a < 10) : digit a = Nat.digitChar a := by
  interval_cases a <;> rfl

theorem chunkDigits_value (n : Nat) : Nat.ofDigitChars 10 (chunkDigits n) 0 = n := by
  unfold chunkDigits
  split
  · rw [digit_eq (by omega), digit_eq (by omega), digit_eq (by omega)]
    rw [Nat.ofDigitChars_cons_digitChar_of_lt_ten (by omega), Nat.ofDigitChars_cons_digitChar_of_lt_ten (by omega),
      Nat.ofDigitChars_cons_digitChar_of_lt_ten (by omega), Nat.ofDigitChars_nil]
    omega
  · exact Nat.ofDigitChars_ten_toDigits

theorem chunkName_inj {i j : Nat} (h : chunkName i = chunkName j) : i = j := by
  rw [chunkName_eq, chunkName_eq, List.append_cancel_right_eq, List.append_cancel_left_eq] at h
  rw [← chunkDigits_value i, h, chunkDigits_value]

theorem chunkDigits_digit {n : Nat} {c : Char} (h : c ∈ chunkDigits n) : c.isDigit := by
  unfold chunkDigits at h
  split at h
  · have : ∀ a, a < 10 → (digit a).isDigit := by intro a ha; interval_cases a <;> rfl
    simp only [List.mem_cons, List.not_mem_nil, or_false] at h
    rcases h with rfl | rfl | rfl <;> exact this _ (by omega)
  · exact Nat.isDigit_of_mem_toDigits (by omega) (by omega) h

theorem chunkName_name (n : Nat) : IsName (chunkName n) := by
  constructor
  · rw [chunkName_eq]; simp
  · rw [chunkName_eq]
    intro h
    rcases List.mem_append.mp h with h | h
    · rcases List.mem_append.mp h with h | h
      · exact absurd h (by decide)
      · exact absurd (chunkDigits_digit h) (by decide)
    · exact absurd h (by decide)

theorem fullName_name : IsName fullName := by unfold IsName fullName; decide

theorem chunkName_ne_full (n : Nat) : chunkName n ≠ fullName := by
  intro h
  have hf : fullName = "sks-".toList ++ "full".toList ++ ".pgp".toList := by decide
  rw [chunkName_eq, hf, List.append_cancel_right_eq, List.append_cancel_left_eq] at h
  have : 'f' ∈ chunkDigits n := by rw [h]; decide
  exact absurd (chunkDigits_digit this) (by decide)

theorem join_inj {d d' n n' : Path} (hn : '/' ∉ n) (hn' : '/' ∉ n') (h : join d n = join d' n') : d = d' ∧ n = n' := by
  unfold join at h
  have hr := congrArg List.reverse h
  simp only [List.reverse_append, List.reverse_cons, List.append_assoc, List.singleton_append] at hr
  have key : ∀ (a a' b b' : List Char), '/' ∉ a → '/' ∉ a' → a ++ '/' :: b = a' ++ '/' :: b' → a = a' ∧ b = b' := by
    intro a
    induction a with
    | nil =>
      intro a' b b' _ h' he
      cases a' with
      | nil => simpa using he
      | cons x a' =>
        simp only [List.nil_append, List.cons_append, List.cons.injEq] at he
        rw [← he.1] at h'
        simp at h'
    | cons x a ih =>
      intro a' b b' h1 h' he
      cases a' with
      | nil =>
        simp only [List.nil_append, List.cons_append, List.cons.injEq] at he
        rw [he.1] at h1
        simp at h1
      | cons y a' =>
        simp only [List.cons_append, List.cons.injEq] at he
        obtain ⟨h3, h4⟩ := ih a' b b' (fun h => h1 (List.mem_cons_of_mem _ h)) (fun h => h' (List.mem_cons_of_mem _ h)) he.2
        exact ⟨by rw [he.1, h3], h4⟩
  obtain ⟨h1, h2⟩ := key _ _ _ _ (by simpa using hn) (by simpa using hn') hr
  exact ⟨List.reverse_injective h2, List.reverse_injective h1⟩

theorem join_chunk_inj {out : Path} {i j : Nat} (h : join out (chunkName i) = join out (chunkName j)) : i = j :=
  chunkName_inj (join_inj (chunkName_name i).2 (chunkName_name j).2 h).2

/-! ### Writes -/

theorem entry_create (d : Disk) (p q : Path) :
    entry (apply d (.create p)) q = if q = p then some (.file []) else entry d q := by
  unfold entry apply
  exact mget_mset _ _ _ _

theorem entry_append (d : Disk) (p q : Path) (bs bs' : List Byte) (h : entry d p = some (.file bs)) :
    entry (apply d (.append p bs')) q = if q = p then some (.file (bs ++ bs')) else entry d q := by
  have : contents d p = bs := by unfold contents; unfold entry at h; rw [h]
  unfold entry apply
  dsimp only
  rw [this]
  exact mget_mset _ _ _ _

theorem proper_apply {d : Disk} (h : Proper d) (o : Op) : Proper (apply d o) := by
  cases o <;> exact distinct_mset (m := d.nodes) h _ _

theorem proper_applyAll {d : Disk} (h : Proper d) (ops : List Op) : Proper (applyAll d ops) := by
  induction ops generalizing d with
  | nil => exact h
  | cons o ops ih => exact ih (proper_apply h o)

theorem applyAll_append (d : Disk) (a b : List Op) : applyAll d (a ++ b) = applyAll (applyAll d a) b := by
  unfold applyAll
  rw [List.foldl_append]

theorem applyAll_cons (d : Disk) (o : Op) (b : List Op) : applyAll d (o :: b) = applyAll (apply d o) b := rfl

theorem encodedFrom_append (L : Lib) (done a b : List Key) :
    encodedFrom L done (a ++ b) = encodedFrom L done a ++ encodedFrom L (done ++ a) b := by
  induction a generalizing done with
  | nil => simp [encodedFrom]
  | cons k a ih =>
    simp only [List.cons_append, encodedFrom, ih, List.append_assoc, List.nil_append]

theorem encoded_concat (L : Lib) (a : List Key) (k : Key) : encoded L (a ++ [k]) = encoded L a ++ L.encode a k := by
  unfold encoded
  rw [encodedFrom_append]
  simp [encodedFrom]

theorem holds_nil (L : Lib) (d : Disk) (p : Path) (h : entry d p = some (.file [])) : Holds L d p [] := h

/-! ### Chunks -/

theorem chunked_nil (L : Lib) (out : Path) (d : Disk) : Chunked L out [] d d :=
  ⟨fun i h => absurd h (by simp), fun _ _ => rfl⟩

theorem chunked_create {L : Lib} {out : Path} {chunks : List (List Key)} {d d' : Disk} (h : Chunked L out chunks d d') :
    Chunked L out (chunks ++ [[]]) d (apply d' (.create (join out (chunkName chunks.length)))) := by
  constructor
  · intro i hi
    unfold Holds
    rw [entry_create]
    by_cases hc : i = chunks.length
    · subst hc
      rw [if_pos rfl]
      simp [encoded, encodedFrom]
    · rw [if_neg (fun e => hc (join_chunk_inj e))]
      have hi' : i < chunks.length := by simp at hi; omega
      rw [List.getElem_append_left hi']
      exact h.holds i hi'
  · intro p hp
    rw [entry_create, if_neg (hp _ (by simp))]
    exact h.rest p (fun i hi => hp i (by simp; omega))

theorem chunked_append {L : Lib} {out : Path} {chunks : List (List Key)} {c : List Key} {d d' : Disk}
    (h : Chunked L out (chunks ++ [c]) d d') (k : Key) :
    Chunked L out (chunks ++ [c ++ [k]]) d (apply d' (.append (join out (chunkName chunks.length)) (L.encode c k))) := by
  have hlast := h.holds chunks.length (by simp)
  rw [List.getElem_concat_length rfl] at hlast
  constructor
  · intro i hi
    unfold Holds
    rw [entry_append _ _ _ _ _ hlast]
    by_cases hc : i = chunks.length
    · subst hc
      rw [if_pos rfl]
      simp [encoded_concat]
    · rw [if_neg (fun e => hc (join_chunk_inj e))]
      have hi' : i < chunks.length := by simp at hi; omega
      rw [List.getElem_append_left hi']
      have := h.holds i (by simp; omega)
      rw [List.getElem_append_left hi'] at this
      exact this
  · intro p hp
    rw [entry_append _ _ _ _ _ hlast, if_neg (hp _ (by simp))]
    exact h.rest p (fun i hi => hp i (by simpa using hi))

/-- The chunks written so far. -/
def Chunks.all (c : Chunks) : List (List Key) := c.finished ++ c.current.toList

/-- One key more. -/
def addKey (limit : Nat) (c : Chunks) (k : Key) : Chunks :=
  let c := newChunk limit c
  { c with current := c.current.map (· ++ [k]), written := c.written + keySize k }

theorem splitDump_eq (limit : Nat) (keys : List Key) (ending : Res Unit) :
    splitDump limit keys ending = (Chunks.all (newChunk limit (keys.foldl (addKey limit) ⟨[], none, 0⟩)), ending) := rfl

theorem newChunk_all_length (limit : Nat) (c : Chunks) : (Chunks.all c).length ≤ (Chunks.all (newChunk limit c)).length := by
  unfold newChunk Chunks.all
  split
  · rename_i h; simp [h]
  · rename_i f h
    split
    · simp [h]
    · exact le_refl _

theorem newChunk_some (limit : Nat) (c : Chunks) : ∃ f, (newChunk limit c).current = some f := by
  unfold newChunk
  split
  · exact ⟨_, rfl⟩
  · rename_i f h
    split
    · exact ⟨_, rfl⟩
    · exact ⟨f, h⟩

theorem addKey_all_length (limit : Nat) (c : Chunks) (k : Key) :
    (Chunks.all (addKey limit c k)).length = (Chunks.all (newChunk limit c)).length := by
  obtain ⟨f, hf⟩ := newChunk_some limit c
  unfold addKey Chunks.all
  simp [hf]

theorem fold_all_length (limit : Nat) (keys : List Key) (c : Chunks) :
    (Chunks.all (newChunk limit c)).length ≤ (Chunks.all (newChunk limit (keys.foldl (addKey limit) c))).length := by
  induction keys generalizing c with
  | nil => exact le_refl _
  | cons k keys ih =>
    rw [List.foldl_cons]
    refine le_trans ?_ (ih _)
    rw [← addKey_all_length limit c k]
    exact newChunk_all_length _ _

/-- The loop of the splitting, from a state in which the chunks of `c` are on the disk `d'`. Every prefix of the writes leaves
chunks that hold a prefix of the keys. -/
theorem splitLoop_spec (L : Lib) (d : Disk) (limit : Nat) (out : Path) (ending : Res Unit) (keys : List Key) :
    ∀ (c : Chunks) (d' : Disk), (c.current = none → c.finished = []) → Chunked L out (Chunks.all c) d d' →
      (∀ i, i < (Chunks.all (newChunk limit (keys.foldl (addKey limit) c))).length → canCreate d out (chunkName i)) →
      let r := splitLoop L d limit out ending keys c.current c.written (Chunks.all c).length
      r.2 = ending ∧
      Chunked L out (Chunks.all (newChunk limit (keys.foldl (addKey limit) c))) d (applyAll d' r.1) ∧
      ∀ n, ∃ m chunks, m ≤ keys.length ∧ Chunked L out chunks d (applyAll d' (r.1.take n)) ∧
        (chunks = Chunks.all ((keys.take m).foldl (addKey limit) c) ∨
          chunks = Chunks.all (newChunk limit ((keys.take m).foldl (addKey limit) c))) := by
  induction keys with
  | nil =>
    intro c d' hfirst hc hcan
    rw [List.foldl_nil] at hcan
    rw [List.foldl_nil]
    unfold splitLoop
    dsimp only
    by_cases hnew : (c.current.isNone || decide (limit < c.written)) = true
    · have hall : Chunks.all (newChunk limit c) = Chunks.all c ++ [[]] := by
        unfold newChunk Chunks.all
        split
        · rename_i h; simp [h]
        · rename_i f h
          rw [h] at hnew
          simp only [Option.isNone_some, Bool.false_or, decide_eq_true_eq] at hnew
          rw [if_pos hnew, h]
          simp
      rw [if_neg (by rw [hcan _ (by rw [hall]; simp)]; simp), hall]
      simp only [hnew, if_true]
      refine ⟨trivial, chunked_create hc, ?_⟩
      intro n
      cases n with
      | zero => exact ⟨0, _, le_refl _, hc, Or.inl rfl⟩
      | succ n =>
        refine ⟨0, _, le_refl _, ?_, Or.inr rfl⟩
        rw [List.take_nil, List.foldl_nil, hall, List.take_succ_cons, List.take_nil]
        exact chunked_create hc
    · have hnew' : (c.current.isNone || decide (limit < c.written)) = false := by simpa only [Bool.not_eq_true] using hnew
      have hall : newChunk limit c = c := by
        unfold newChunk
        split
        · rename_i h; simp [h] at hnew'
        · rename_i f h
          rw [h] at hnew'
          simp only [Option.isNone_some, Bool.false_or, decide_eq_false_iff_not] at hnew'
          rw [if_neg hnew']
      rw [if_neg (by rw [hnew']; simp), hall]
      simp only [hnew', Bool.false_eq_true, if_false]
      refine ⟨trivial, hc, ?_⟩
      intro n
      exact ⟨0, _, le_refl _, by simpa [applyAll] using hc, Or.inl rfl⟩
  | cons k keys ih =>
    intro c d' hfirst hc hcan
    have hlen := fold_all_length limit (k :: keys) c
    rw [List.foldl_cons] at hcan
    rw [List.foldl_cons]
    obtain ⟨f, hf⟩ := newChunk_some limit c
    unfold splitLoop
    dsimp only
    by_cases hnew : (c.current.isNone || decide (limit < c.written)) = true
    · have hfin : newChunk limit c = ⟨Chunks.all c, some [], 0⟩ := by
        unfold newChunk Chunks.all
        split
        · rename_i h; simp [h]
        · rename_i f h
          rw [h] at hnew
          simp only [Option.isNone_some, Bool.false_or, decide_eq_true_eq] at hnew
          rw [if_pos hnew, h]
          simp
      have hadd : addKey limit c k = ⟨Chunks.all c, some [k], keySize k⟩ := by
        unfold addKey
        rw [hfin]
        simp
      rw [if_neg (by rw [hcan _ (by
        have := fold_all_length limit (k :: keys) c
        rw [List.foldl_cons, hfin] at this
        refine lt_of_lt_of_le ?_ this
        simp [Chunks.all])]; simp)]
      simp only [hnew, if_true, Nat.add_sub_cancel, List.nil_append, Nat.zero_add]
      have hc1 := chunked_create hc
      have hc2 := chunked_append hc1 k
      have hch : Chunks.all (addKey limit c k) = Chunks.all c ++ [[] ++ [k]] := by rw [hadd]; rfl
      have hih := ih (addKey limit c k) _ (by rw [hadd]; simp) (by rw [hch]; exact hc2) hcan
      have hl : (Chunks.all (addKey limit c k)).length = (Chunks.all c).length + 1 := by rw [hch]; simp
      rw [hl] at hih
      have hcur : (addKey limit c k).current = some [k] := by rw [hadd]
      have hwr : (addKey limit c k).written = keySize k := by rw [hadd]
      rw [hcur, hwr] at hih
      dsimp only at hih
      obtain ⟨h1, h2, h3⟩ := hih
      refine ⟨h1, ?_, ?_⟩
      · rw [List.singleton_append, applyAll_cons, applyAll_cons]
        exact h2
      · intro n
        rw [List.singleton_append]
        match n with
        | 0 => exact ⟨0, _, by simp, hc, Or.inl rfl⟩
        | 1 =>
          refine ⟨0, _, by simp, ?_, Or.inr rfl⟩
          rw [List.take_zero, List.foldl_nil, hfin, List.take_succ_cons, List.take_zero]
          exact hc1
        | n + 2 =>
          obtain ⟨m, chunks, hm, hch, hor⟩ := h3 n
          refine ⟨m + 1, chunks, by simpa using hm, ?_, ?_⟩
          · rw [List.take_succ_cons, List.take_succ_cons, applyAll_cons, applyAll_cons]
            exact hch
          · rw [List.take_succ_cons, List.foldl_cons]
            exact hor
    · have hnew' : (c.current.isNone || decide (limit < c.written)) = false := by simpa only [Bool.not_eq_true] using hnew
      have hcsome : ∃ f, c.current = some f := by
        cases h : c.current with
        | none => simp [h] at hnew'
        | some f => exact ⟨f, rfl⟩
      obtain ⟨g, hg⟩ := hcsome
      have hfin : newChunk limit c = c := by
        unfold newChunk
        rw [hg] at hnew' ⊢
        simp only [Option.isNone_some, Bool.false_or, decide_eq_false_iff_not] at hnew'
        dsimp only
        rw [if_neg hnew']
      have hadd : addKey limit c k = ⟨c.finished, some (g ++ [k]), c.written + keySize k⟩ := by
        unfold addKey
        rw [hfin]
        simp [hg]
      rw [if_neg (by rw [hnew']; simp)]
      simp only [hnew', Bool.false_eq_true, if_false, List.nil_append]
      have hall : Chunks.all c = c.finished ++ [g] := by simp [Chunks.all, hg]
      rw [hall] at hc
      have hc2 := chunked_append hc k
      have hch : Chunks.all (addKey limit c k) = c.finished ++ [g ++ [k]] := by rw [hadd]; rfl
      have hih := ih (addKey limit c k) _ (by rw [hadd]; simp) (by rw [hch]; exact hc2) hcan
      have hl : (Chunks.all (addKey limit c k)).length = (Chunks.all c).length := by rw [hch, hall]; simp
      rw [hl] at hih
      have hcur : (addKey limit c k).current = some (g ++ [k]) := by rw [hadd]
      have hwr : (addKey limit c k).written = c.written + keySize k := by rw [hadd]
      rw [hcur, hwr] at hih
      dsimp only at hih
      obtain ⟨h1, h2, h3⟩ := hih
      have hlen1 : (Chunks.all c).length - 1 = c.finished.length := by rw [hall]; simp
      rw [hg, Option.getD_some, hlen1]
      refine ⟨h1, ?_, ?_⟩
      · rw [applyAll_cons]
        exact h2
      · intro n
        match n with
        | 0 =>
          refine ⟨0, _, by simp, ?_, Or.inl rfl⟩
          rw [List.take_zero, List.foldl_nil, hall]
          exact hc
        | n + 1 =>
          obtain ⟨m, chunks, hm, hch, hor⟩ := h3 n
          refine ⟨m + 1, chunks, by simpa using hm, ?_, ?_⟩
          · rw [List.take_succ_cons, applyAll_cons]
            exact hch
          · rw [List.take_succ_cons, List.foldl_cons]
            exact hor

theorem addKey_flatten {limit : Nat} (keys : List Key) : ∀ c : Chunks, (c.current = none → c.finished = []) →
    (Chunks.all (keys.foldl (addKey limit) c)).flatten = (Chunks.all c).flatten ++ keys ∧
    (Chunks.all (newChunk limit (keys.foldl (addKey limit) c))).flatten = (Chunks.all c).flatten ++ keys := by
  have hnew : ∀ c : Chunks, (Chunks.all (newChunk limit c)).flatten = (Chunks.all c).flatten := by
    intro c
    unfold newChunk Chunks.all
    split
    · rename_i h; simp [h]
    · rename_i f h
      split <;> simp [h]
  have h1 : ∀ c : Chunks, (Chunks.all (keys.foldl (addKey limit) c)).flatten = (Chunks.all c).flatten ++ keys := by
    induction keys with
    | nil => intro c; simp
    | cons k keys ih =>
      intro c
      rw [List.foldl_cons, ih]
      have : (Chunks.all (addKey limit c k)).flatten = (Chunks.all c).flatten ++ [k] := by
        obtain ⟨f, hf⟩ := newChunk_some limit c
        rw [← hnew c]
        unfold addKey Chunks.all
        simp [hf]
      rw [this]
      simp
  intro c _
  exact ⟨h1 c, by rw [hnew, h1]⟩

/-- What interrupted splitting has written, compared to complete splitting: the same chunks, but for the last, which holds a
prefix. -/
theorem fold_prefix (limit : Nat) (keys : List Key) (c : Chunks) :
    c.finished <+: (keys.foldl (addKey limit) c).finished := by
  induction keys generalizing c with
  | nil => exact List.prefix_refl _
  | cons k keys ih =>
    rw [List.foldl_cons]
    refine List.IsPrefix.trans ?_ (ih _)
    unfold addKey newChunk
    split
    · exact List.prefix_refl _
    · rename_i f h
      split
      · exact List.prefix_append _ _
      · exact List.prefix_refl _

theorem newChunk_prefix (limit : Nat) (c : Chunks) : c.finished <+: (newChunk limit c).finished := by
  unfold newChunk
  split
  · exact List.prefix_refl _
  · rename_i f h
    split
    · exact List.prefix_append _ _
    · exact List.prefix_refl _

/-! ### The three commands -/

theorem canCreate_iff (d : Disk) (dir name : Path) :
    canCreate d dir name = true ↔ entry d dir = some .dir ∧ entry d (join dir name) ≠ some .dir := by
  unfold canCreate entry
  simp

/-- Splitting a file that is not the first chunk. -/
theorem split_run (L : Lib) (d : Disk) (limit : Nat) (path out : Path) (bs : List Byte) (keys : List Key) (ending : Res Unit)
    (hin : entry d path = some (.file bs)) (hdec : L.decode bs = (keys, ending)) (hne : path ≠ join out (chunkName 0))
    (hcan : ∀ i, i < (splitDump limit keys ending).1.length → canCreate d out (chunkName i)) :
    (splitFullDumpIntoChunks L d limit path out).2 = ending ∧
    Chunked L out (splitDump limit keys ending).1 d (applyAll d (splitFullDumpIntoChunks L d limit path out).1) ∧
    ∀ n, ∃ m chunks, m ≤ keys.length ∧
      Chunked L out chunks d (applyAll d ((splitFullDumpIntoChunks L d limit path out).1.take n)) ∧
      (chunks = Chunks.all ((keys.take m).foldl (addKey limit) ⟨[], none, 0⟩) ∨
        chunks = Chunks.all (newChunk limit ((keys.take m).foldl (addKey limit) ⟨[], none, 0⟩))) := by
  have hrun : splitFullDumpIntoChunks L d limit path out = splitLoop L d limit out ending keys none 0 0 := by
    unfold splitFullDumpIntoChunks
    have h1 : mget d.nodes path = some (.file bs) := hin
    have h2 : readFile (apply d (.create (join out (chunkName 0)))) path = ok bs := by
      have := entry_create d (join out (chunkName 0)) path
      rw [if_neg hne, hin] at this
      unfold readFile
      unfold entry at this
      rw [this]
    rw [h1]
    dsimp only
    rw [h2]
    dsimp only
    rw [hdec]
  rw [hrun]
  rw [splitDump_eq] at hcan ⊢
  exact splitLoop_spec L d limit out ending keys ⟨[], none, 0⟩ d (fun _ => rfl) (chunked_nil L out d) hcan

/-- The keys that are written: those that are not too large. -/
def kept (ser : Entity → List Byte) (m : List (Str × Entity)) : List Key :=
  (m.filter (fun x => decide ((ser x.2).length ≤ 8192))).map (fun x => ⟨x.1, ser x.2⟩)

/-- The disk `d'` differs from `d` in that `p` holds these keys, and in nothing else. -/
structure Wrote (L : Lib) (p : Path) (keys : List Key) (d d' : Disk) : Prop where
  holds : Holds L d' p keys
  rest : ∀ q, q ≠ p → entry d' q = entry d q

theorem wrote_append {L : Lib} {p : Path} {keys : List Key} {d d' : Disk} (h : Wrote L p keys d d') (k : Key) :
    Wrote L p (keys ++ [k]) d (apply d' (.append p (L.encode keys k))) := by
  constructor
  · unfold Holds
    rw [entry_append _ _ _ _ _ h.holds, if_pos rfl, encoded_concat]
  · intro q hq
    rw [entry_append _ _ _ _ _ h.holds, if_neg hq]
    exact h.rest q hq

theorem writeKeys_spec (L : Lib) (ser : Entity → List Byte) (hser : ∀ e, L.serialize e = ok (ser e)) (p : Path) (d : Disk)
    (m : List (Str × Entity)) : ∀ (done : List Key) (d' : Disk), Wrote L p done d d' →
      (writeKeys L p m done).2 = ok () ∧
      Wrote L p (done ++ kept ser m) d (applyAll d' (writeKeys L p m done).1) ∧
      ∀ n, Wrote L p (done ++ (kept ser m).take n) d (applyAll d' ((writeKeys L p m done).1.take n)) := by
  induction m with
  | nil =>
    intro done d' h
    refine ⟨rfl, by simpa [kept, writeKeys, applyAll] using h, fun n => by simpa [kept, writeKeys, applyAll] using h⟩
  | cons x m ih =>
    intro done d' h
    unfold writeKeys
    rw [hser]
    dsimp only
    by_cases hx : 8192 < (ser x.2).length
    · rw [if_pos hx]
      have hk : kept ser (x :: m) = kept ser m := by
        unfold kept
        rw [List.filter_cons_of_neg (by simpa using hx)]
      rw [hk]
      exact ih done d' h
    · rw [if_neg hx]
      have hk : kept ser (x :: m) = ⟨x.1, ser x.2⟩ :: kept ser m := by
        unfold kept
        rw [List.filter_cons_of_pos (by simpa using hx)]
        rfl
      obtain ⟨h1, h2, h3⟩ := ih (done ++ [⟨x.1, ser x.2⟩]) _ (wrote_append h ⟨x.1, ser x.2⟩)
      rw [hk]
      refine ⟨h1, ?_, ?_⟩
      · rw [applyAll_cons]
        simpa using h2
      · intro n
        cases n with
        | zero => simpa [applyAll] using h
        | succ n =>
          rw [List.take_succ_cons, List.take_succ_cons, applyAll_cons]
          simpa using h3 n

/-- Writing the keys of a dump. -/
theorem write_run (L : Lib) (ser : Entity → List Byte) (hser : ∀ e, L.serialize e = ok (ser e)) (d : Disk) (dir : Path)
    (m : List (Str × Entity)) (hcan : canCreate d dir fullName) :
    (writeKeysOnDisk L d dir m).2 = ok () ∧
    Wrote L (join dir fullName) (kept ser (L.order m)) d (applyAll d (writeKeysOnDisk L d dir m).1) ∧
    ∀ n, Wrote L (join dir fullName) ((kept ser (L.order m)).take n) d
      (applyAll d ((writeKeysOnDisk L d dir m).1.take (n + 1))) := by
  unfold writeKeysOnDisk
  rw [if_pos hcan]
  have h0 : Wrote L (join dir fullName) [] d (apply d (.create (join dir fullName))) := by
    constructor
    · unfold Holds
      rw [entry_create, if_pos rfl]
      rfl
    · intro q hq
      rw [entry_create, if_neg hq]
  obtain ⟨h1, h2, h3⟩ := writeKeys_spec L ser hser (join dir fullName) d (L.order m) [] _ h0
  refine ⟨h1, by simpa [applyAll_cons] using h2, fun n => ?_⟩
  have := h3 n
  rw [List.take_succ_cons, applyAll_cons]
  simpa using this

/-! ### Reading directories -/

theorem nameIn_eq_some (dir p n : Path) : nameIn dir p = some n ↔ IsName n ∧ p = join dir n := by
  unfold nameIn
  have hj : ∀ r, join dir [] ++ r = join dir r := by intro r; simp [join]
  constructor
  · intro h
    split at h
    · cases h
    · rename_i name hne he
      have := List.isPrefixOf?_eq_some_iff_append_eq.mp he
      split at h
      · cases h
      · rename_i hs
        simp only [Option.some.injEq] at h
        subst h
        refine ⟨⟨?_, hs⟩, by rw [← this, hj]⟩
        rintro rfl
        exact hne rfl
    · cases h
  · rintro ⟨⟨h1, h2⟩, rfl⟩
    have : (join dir []).isPrefixOf? (join dir n) = some n := List.isPrefixOf?_eq_some_iff_append_eq.mpr (hj n)
    rw [this]
    cases n with
    | nil => exact absurd rfl h1
    | cons c n => simp [h2]

theorem entry_isSome (d : Disk) (p : Path) : (entry d p).isSome ↔ ∃ e ∈ d.nodes, e.1 = p := by
  unfold entry mget
  simp only [Option.isSome_map, List.find?_isSome, decide_eq_true_eq]

/-- What `ReadDir` returns: the names of all entries, each once, in order. -/
theorem readDir_spec {d : Disk} (hd : Proper d) {dir : Path} (hdir : entry d dir = some .dir) :
    ∃ names, readDir d dir = ok names ∧ names.Pairwise (· < ·) ∧
      ∀ n, n ∈ names ↔ IsName n ∧ (entry d (join dir n)).isSome := by
  refine ⟨(d.nodes.filterMap (fun e => nameIn dir e.1)).mergeSort (fun a b => decide (a ≤ b)), ?_, ?_, ?_⟩
  · unfold readDir
    unfold entry at hdir
    rw [hdir]
  · have hperm := List.mergeSort_perm (d.nodes.filterMap (fun e => nameIn dir e.1)) (fun a b => decide (a ≤ b))
    have hn : (d.nodes.filterMap (fun e => nameIn dir e.1)).Nodup := by
      have : (d.nodes.filterMap (fun e => nameIn dir e.1)) = (d.nodes.map (·.1)).filterMap (nameIn dir) := by
        rw [List.filterMap_map]; rfl
      rw [this]
      refine List.Nodup.filterMap ?_ hd
      intro a a' b hb hb'
      rw [Option.mem_def, nameIn_eq_some] at hb hb'
      rw [hb.2, hb'.2]
    have hs := List.pairwise_mergeSort (le := fun a b : Path => decide (a ≤ b))
      (by intro a b c h1 h2; simp only [decide_eq_true_iff] at *; exact List.le_trans h1 h2)
      (by intro a b; simp only [Bool.or_eq_true, decide_eq_true_iff]; exact List.le_total _ _)
      (d.nodes.filterMap (fun e => nameIn dir e.1))
    have hn' := hperm.nodup_iff.mpr hn
    refine (hs.and (List.nodup_iff_pairwise_ne.mp hn')).imp ?_
    rintro a b ⟨h1, h2⟩
    simp only [decide_eq_true_iff] at h1
    by_contra hlt
    exact h2 (List.le_antisymm h1 (List.not_lt.mp hlt))
  · intro n
    rw [(List.mergeSort_perm _ _).mem_iff, List.mem_filterMap, entry_isSome]
    constructor
    · rintro ⟨e, he, hn⟩
      rw [nameIn_eq_some] at hn
      exact ⟨hn.1, e, he, hn.2⟩
    · rintro ⟨hn, e, he, hp⟩
      exact ⟨e, he, (nameIn_eq_some _ _ _).mpr ⟨hn, hp⟩⟩

end Verif.Data
