import Verif.Model.Cmd
import Verif.Lemmas.Encoding
import Verif.Lemmas.Numeral
import Mathlib.Data.List.Perm.Basic
import Mathlib.Data.List.Nodup

/-! # Configuration, database agreement, counting pages, dump splitting (C46, C49, C51, C52) -/

set_option linter.unusedSimpArgs false
namespace Verif.Cmd
open Res Verif.Query Verif.Utils Verif.Cmd.Spec

/-! ### C46: agreement on the database -/

/-- C46 as claimed: an accepted list of infos has one value only. -/
def C46_Statement : Prop :=
  ∀ arrived infos, getDBInfos arrived = ok infos → ∀ i ∈ arrived, ∀ j ∈ arrived, i = j

theorem equal_iff (l : List DbInfo) : equalDBInfo l = true ↔
    ∀ i ∈ l, ∀ j ∈ l, i.numRows = j.numRows ∧ i.numColumns = j.numColumns ∧ i.blockSize = j.blockSize := by
  cases l with
  | nil => simp [equalDBInfo]
  | cons a l =>
    simp only [equalDBInfo, List.all_eq_true, Bool.and_eq_true, decide_eq_true_eq]
    constructor
    · intro h i hi j hj
      obtain ⟨⟨h1, h2⟩, h3⟩ := h i hi
      obtain ⟨⟨h4, h5⟩, h6⟩ := h j hj
      exact ⟨by rw [← h1, h4], by rw [← h2, h5], by rw [← h3, h6]⟩
    · intro h i hi
      obtain ⟨h1, h2, h3⟩ := h a (by simp) i hi
      exact ⟨⟨h1, h2⟩, h3⟩

/-- C46 restricted to the dimensions: both clients go on exactly if there is a server and all report the same numbers
of rows and columns and the same block size, whatever the order of arrival. Missing from the full claim: root, type and
proof length, for which it is false. -/
theorem C46_dimensions_partial (servers arrived : List DbInfo) (hp : arrived.Perm servers) :
    ((∃ infos, getDBInfos arrived = ok infos) ↔ servers ≠ [] ∧ ∀ i ∈ servers, ∀ j ∈ servers,
      i.numRows = j.numRows ∧ i.numColumns = j.numColumns ∧ i.blockSize = j.blockSize) ∧
    ((∃ info, retrieveDBInfo arrived = ok info) ↔ ∃ infos, getDBInfos arrived = ok infos) := by
  have hmem : ∀ i, i ∈ arrived ↔ i ∈ servers := fun i => hp.mem_iff
  have hlen := hp.length_eq
  have heq := equal_iff arrived
  simp only [hmem] at heq
  rw [← heq]
  have hne : servers ≠ [] ↔ arrived ≠ [] := by
    rw [← List.length_pos_iff, ← List.length_pos_iff, hlen]
  rw [hne]
  unfold getDBInfos retrieveDBInfo
  cases arrived with
  | nil => simp [equalDBInfo, idx]
  | cons a l =>
    cases equalDBInfo (a :: l) <;> simp [idx]

/-- C46: which value is used is decided by the server that answers first: every reported root is used for some order
of arrival. -/
theorem C46_first_arrival_decides (servers : List DbInfo) (i : DbInfo) (hi : i ∈ servers)
    (heq : ∀ i ∈ servers, ∀ j ∈ servers, i.numRows = j.numRows ∧ i.numColumns = j.numColumns ∧ i.blockSize = j.blockSize) :
    ∃ arrived, arrived.Perm servers ∧ retrieveDBInfo arrived = ok i ∧
      ∃ rest, getDBInfos arrived = ok (i :: rest) := by
  obtain ⟨a, b, rfl⟩ := List.append_of_mem hi
  refine ⟨i :: (a ++ b), List.perm_middle.symm, ?_, a ++ b, ?_⟩
  all_goals
    have h : equalDBInfo (i :: (a ++ b)) = true := by
      rw [equal_iff]
      intro x hx y hy
      exact heq x (List.perm_middle.symm.mem_iff.mp hx) y (List.perm_middle.symm.mem_iff.mp hy)
    simp [retrieveDBInfo, getDBInfos, h, idx]

/-- C46 as claimed is false: two servers with different roots. -/
theorem C46_refuted : ¬ C46_Statement := by
  intro h
  have := h [⟨2, 2, 4, "merkle", [1], 3⟩, ⟨2, 2, 4, "classical", [2], 5⟩]
    [⟨2, 2, 4, "merkle", [1], 3⟩, ⟨2, 2, 4, "classical", [2], 5⟩] (by decide)
    ⟨2, 2, 4, "merkle", [1], 3⟩ (by decide) ⟨2, 2, 4, "classical", [2], 5⟩ (by decide)
  exact absurd this (by decide)

/-- What the client receives is what the server has, for dimensions of up to 32 bits; larger ones are cut. -/
theorem C46_transmitted (i : DbInfo) : transmit i = i ↔
    i.numRows < 2 ^ 32 ∧ i.numColumns < 2 ^ 32 ∧ i.blockSize < 2 ^ 32 ∧ i.proofLen < 2 ^ 32 := by
  obtain ⟨a, b, c, d, e, f⟩ := i
  simp only [transmit, DbInfo.mk.injEq, true_and]
  constructor
  · rintro ⟨h1, h2, h3, h4⟩
    exact ⟨by omega, by omega, by omega, by omega⟩
  · rintro ⟨h1, h2, h3, h4⟩
    exact ⟨by omega, by omega, by omega, by omega⟩

/-- A case in which the client goes on. -/
example : getDBInfos [⟨2, 2, 4, "", [], 0⟩, ⟨2, 2, 4, "", [], 0⟩] =
    ok [⟨2, 2, 4, "", [], 0⟩, ⟨2, 2, 4, "", [], 0⟩] := by decide

/-! ### C49: server addresses -/

/-- C49 as claimed, for every order in which the map is iterated: the addresses by index if the keys are the numbers from
0 on, an error otherwise. -/
def C49_Statement : Prop :=
  ∀ (servers order : List (List Char × Server)), (servers.map Prod.fst).Nodup → order.Perm servers →
    (Numbered servers → loadConfig order = ok (servers.map (fun e => address e.2))) ∧
    ((¬ ∃ l : List (List Char × Server), l.Perm servers ∧ Numbered l) → (loadConfig order).isErr)

/-- Entries whose keys are numbers in range are stored one after the other. -/
theorem load_foldl (n : Nat) (l : List (List Char × Server)) (acc : List String) (hacc : acc.length = n)
    (h : ∀ e ∈ l, ∃ i : Nat, atoi e.1 = ok (i : Int) ∧ i < n) :
    ∃ r, l.foldlM (fun (addresses : List String) (e : List Char × Server) => do
      let i ← atoi e.1
      if i < 0 then crash "index out of range" else
      setAt addresses i.toNat (address e.2)) acc = ok r ∧ r.length = n ∧
      (∀ j : Nat, (∀ e ∈ l, atoi e.1 ≠ ok (j : Int)) → r[j]? = acc[j]?) ∧
      (∀ (j : Nat) (s : Server), (∀ e ∈ l, atoi e.1 = ok (j : Int) → e.2 = s) → (∃ e ∈ l, atoi e.1 = ok (j : Int)) →
        r[j]? = some (address s)) := by
  induction l generalizing acc with
  | nil => exact ⟨acc, rfl, hacc, fun _ _ => rfl, fun j s _ ⟨e, he, _⟩ => absurd he (by simp)⟩
  | cons e l ih =>
    obtain ⟨i, hi, hin⟩ := h e (by simp)
    obtain ⟨r, h1, h2, h3, h4⟩ := ih (acc.set i (address e.2)) (by simp [hacc])
      (fun e he => h e (by simp [he]))
    refine ⟨r, ?_, h2, ?_, ?_⟩
    · rw [List.foldlM_cons, hi, ok_bind, if_neg (by omega), Int.toNat_natCast, setAt_of_lt (by omega), ok_bind]
      exact h1
    · intro j hj
      rw [h3 j (fun e he => hj e (by simp [he]))]
      rw [List.getElem?_set_ne]
      intro hij
      subst hij
      exact hj e (by simp) hi
    · intro j s hs hex
      by_cases hl : ∃ e ∈ l, atoi e.1 = ok (j : Int)
      · exact h4 j s (fun e he => hs e (by simp [he])) hl
      · push Not at hl
        rw [h3 j hl]
        obtain ⟨e', he', hej⟩ := hex
        rcases List.mem_cons.mp he' with rfl | hm
        · rw [hi] at hej
          have : i = j := by simpa using hej
          subst this
          rw [List.getElem?_set_self (by omega), hs _ (by simp) hi]
        · exact absurd hej (hl e' hm)

/-- C49 for keys that are the numbers from 0 on, each once: the addresses sorted by number, for every order of iteration.
Missing from the full claim: other keys, for which it is false. -/
theorem C49_sorted_partial (servers order : List (List Char × Server)) (hp : order.Perm servers)
    (hk : Numbered servers) : loadConfig order = ok (servers.map (fun e => address e.2)) := by
  have hat : ∀ (i : Nat) (h : i < servers.length), atoi servers[i].1 = ok (i : Int) := fun i h => (atoi_eq_ok _ _).2 (hk i h)
  have hmem : ∀ e ∈ order, ∃ i, ∃ h : i < servers.length, servers[i] = e := by
    intro e he
    exact List.getElem_of_mem (hp.mem_iff.mp he)
  unfold loadConfig
  rw [hp.length_eq]
  obtain ⟨r, h1, h2, -, h4⟩ := load_foldl servers.length order (List.replicate servers.length "") (by simp) (by
    intro e he
    obtain ⟨i, hi, rfl⟩ := hmem e he
    exact ⟨i, hat i hi, hi⟩)
  rw [h1]
  congr 1
  apply List.ext_getElem?
  intro i
  by_cases hi : i < servers.length
  · rw [h4 i servers[i].2 (by
      intro e he hei
      obtain ⟨j, hj, rfl⟩ := hmem e he
      rw [hat j hj] at hei
      have : j = i := by simpa using hei
      subst this
      rfl) ⟨servers[i], hp.mem_iff.mpr (List.getElem_mem hi), hat i hi⟩]
    simp [hi]
  · rw [List.getElem?_eq_none (by omega), List.getElem?_eq_none (by simp; omega)]

/-- C49: a key that is not a number is refused with an error, if the others are numbers in range. -/
theorem C49_not_a_number (order : List (List Char × Server))
    (h : ∀ e ∈ order, (∃ i : Nat, IsNumeral e.1 i ∧ i < order.length) ∨ ¬ ∃ y, IsNumeral e.1 y)
    (hb : ∃ e ∈ order, ¬ ∃ y, IsNumeral e.1 y) : (loadConfig order).isErr := by
  simp only [← atoi_isErr] at h hb
  simp only [← atoi_eq_ok] at h
  unfold loadConfig
  have key : ∀ (n : Nat) (l : List (List Char × Server)) (acc : List String), acc.length = n →
      (∀ e ∈ l, (∃ i : Nat, atoi e.1 = ok (i : Int) ∧ i < n) ∨ (atoi e.1).isErr) → (∃ e ∈ l, (atoi e.1).isErr) →
      (l.foldlM (fun (addresses : List String) (e : List Char × Server) => do
        let i ← atoi e.1
        if i < 0 then crash "index out of range" else
        setAt addresses i.toNat (address e.2)) acc).isErr := by
    intro n l
    induction l with
    | nil => intro acc _ _ ⟨e, he, _⟩; simp at he
    | cons e l ih =>
      intro acc hacc hl ⟨e', he', hee⟩
      rw [List.foldlM_cons]
      rcases hl e (by simp) with ⟨i, hi, hin⟩ | he
      · rw [hi, ok_bind, if_neg (by omega), Int.toNat_natCast, setAt_of_lt (by omega), ok_bind]
        apply ih _ (by simp [hacc]) (fun e he => hl e (by simp [he]))
        rcases List.mem_cons.mp he' with rfl | hm
        · rw [hi] at hee; simp at hee
        · exact ⟨e', hm, hee⟩
      · cases hat : atoi e.1 with
        | ok i => rw [hat] at he; simp at he
        | err m => simp
        | crash m => rw [hat] at he; simp at he
  exact key order.length order _ (by simp) h hb

/-- C49 is false for numbers out of range: the program crashes, for every order of iteration, if all keys are
numbers. -/
theorem C49_out_of_range_crashes (order : List (List Char × Server)) (h : ∀ e ∈ order, ∃ i, IsNumeral e.1 i)
    (hb : ∃ e ∈ order, ∃ i, IsNumeral e.1 i ∧ (i < 0 ∨ (order.length : Int) ≤ i)) : (loadConfig order).isCrash := by
  simp only [← atoi_eq_ok] at h hb
  unfold loadConfig
  have key : ∀ (n : Nat) (l : List (List Char × Server)) (acc : List String), acc.length = n →
      (∀ e ∈ l, ∃ i, atoi e.1 = ok i) → (∃ e ∈ l, ∃ i, atoi e.1 = ok i ∧ (i < 0 ∨ (n : Int) ≤ i)) →
      (l.foldlM (fun (addresses : List String) (e : List Char × Server) => do
        let i ← atoi e.1
        if i < 0 then crash "index out of range" else
        setAt addresses i.toNat (address e.2)) acc).isCrash := by
    intro n l
    induction l with
    | nil => intro acc _ _ ⟨e, he, _⟩; simp at he
    | cons e l ih =>
      intro acc hacc hl ⟨e', he', i', hi', hr'⟩
      obtain ⟨i, hi⟩ := hl e (by simp)
      rw [List.foldlM_cons, hi, ok_bind]
      by_cases hneg : i < 0
      · rw [if_pos hneg]
        simp
      rw [if_neg hneg]
      by_cases hbig : (n : Int) ≤ i
      · have : (setAt acc i.toNat (address e.2)).isCrash := by
          unfold setAt
          rw [if_neg (by omega)]
          simp
        rw [isCrash_bind]
        exact Or.inl this
      rw [setAt_of_lt (by omega), ok_bind]
      apply ih _ (by simp [hacc]) (fun e he => hl e (by simp [he]))
      rcases List.mem_cons.mp he' with rfl | hm
      · rw [hi] at hi'
        simp only [ok.injEq] at hi'
        subst hi'
        omega
      · exact ⟨e', hm, i', hi', hr'⟩
  exact key order.length order _ (by simp) h hb

/-- C49: different keys can be the same number, and then the result depends on the order of iteration. -/
theorem C49_order_matters :
    loadConfig [("0".toList, ⟨0, "a", 1⟩), ("00".toList, ⟨0, "b", 1⟩)] = ok ["b:1", ""] ∧
    loadConfig [("00".toList, ⟨0, "b", 1⟩), ("0".toList, ⟨0, "a", 1⟩)] = ok ["a:1", ""] := by decide

/-- C49 as claimed is false. -/
theorem C49_refuted : ¬ C49_Statement := by
  intro h
  have h1 := (h [("1".toList, ⟨0, "a", 1⟩)] [("1".toList, ⟨0, "a", 1⟩)] (by simp) (List.Perm.refl _)).2 (by
    rintro ⟨l, hl, hm⟩
    rw [List.perm_singleton.mp hl, numbered_iff] at hm
    exact absurd hm (by decide))
  exact absurd h1 (by decide)

/-- A configuration to which `C49_sorted_partial` applies, iterated in another order. -/
example : loadConfig [("1".toList, ⟨7, "b", 2⟩), ("0".toList, ⟨9, "a", 1⟩)] = ok ["a:1", "b:2"] :=
  C49_sorted_partial [("0".toList, ⟨9, "a", 1⟩), ("1".toList, ⟨7, "b", 2⟩)] _ (List.Perm.swap _ _ _)
    ((numbered_iff _).2 (by decide))

/-! ### C51: no count after a failure -/

/-- C51 as claimed, for the three pages: if the query fails, the reply is one error and nothing else. -/
def C51_Statement : Prop :=
  ∀ (hash : List Byte → List Byte) (mk : Int → Time) (exec : ClientFSS → Res U32) (req : Request),
    (∀ q, (exec q).isErr) → (∀ d, ∃ b, (mk d).bin = ok b) →
    (∃ c m, handleCountEmail hash exec req = ok [.error c m]) ∧
    (∃ c m, handleCountAlgo exec req = ok [.error c m]) ∧
    (∃ c m, handleCountTimestamp mk exec req = ok [.error c m])

/-- C51 for the e-mail page: it writes one count, that of the query made, or one error. Missing from the full claim: the
other two pages, for which it is false. -/
theorem C51_email_partial (hash : List Byte → List Byte) (exec : ClientFSS → Res U32) (req : Request)
    (w : List Write) (h : handleCountEmail hash exec req = ok w) :
    (∃ n q, exec q = ok n ∧ w = [.count n]) ∨ ∃ c m, w = [.error c m] := by
  unfold handleCountEmail at h
  split at h
  · cases h
  · right; exact ⟨_, _, by simpa using h.symm⟩
  dsimp only at h
  split at h
  · right; exact ⟨_, _, by simpa using h.symm⟩
  split at h
  · right; exact ⟨_, _, by simpa using h.symm⟩
  split at h
  · right; exact ⟨_, _, by simpa using h.symm⟩
  obtain ⟨q, -, h⟩ := bind_eq_ok.mp h
  split at h
  · cases h
  · right; exact ⟨_, _, by simpa using h.symm⟩
  · rename_i n hn
    left
    exact ⟨n, q, hn, by simpa using h.symm⟩

/-- C51: what the other two pages write when the query fails: the error and, after it, the count zero. -/
theorem C51_count_after_error (mk : Int → Time) (exec : ClientFSS → Res U32) (req : Request)
    (hparse : req.parse = ok ()) (hfail : ∀ q, (exec q).isErr) :
    (req.value "algo" ≠ "" → ∃ m, handleCountAlgo exec req = ok [.error 500 m, .count 0]) ∧
    ((∃ y, Numeral (req.value "year") y ∧ ∃ q, toCreationTimeClientFSS mk ⟨1, 0, 0, false, false, false⟩ y = ok q) →
      req.value "year" ≠ "" →
      ∃ m, handleCountTimestamp mk exec req = ok [.error 500 m, .count 0]) := by
  have hx : ∀ q, ∃ m, exec q = err m := by
    intro q
    have := hfail q
    cases hq : exec q with
    | ok n => rw [hq] at this; simp at this
    | err m => exact ⟨m, rfl⟩
    | crash m => rw [hq] at this; simp at this
  constructor
  · intro ha
    unfold handleCountAlgo
    rw [hparse]
    dsimp only
    rw [if_neg ha]
    obtain ⟨q, hq⟩ : ∃ q, toPKAClientFSS ⟨2, 0, 0, false, false, false⟩ (req.value "algo") = ok q := by
      unfold toPKAClientFSS idForPubKeyAlgo
      dsimp only
      rw [byteToBits_eq]
      exact ⟨_, rfl⟩
    rw [hq, ok_bind]
    obtain ⟨m, hm⟩ := hx q
    rw [hm]
    exact ⟨_, rfl⟩
  · rintro ⟨y, hy, q, hq⟩ ha
    rw [← atoi_iff] at hy
    unfold handleCountTimestamp
    rw [hparse]
    dsimp only
    rw [if_neg ha]
    unfold toCreationTime
    rw [hy]
    dsimp only
    rw [hq, ok_bind]
    obtain ⟨m, hm⟩ := hx q
    rw [hm]
    exact ⟨_, rfl⟩

/-- C51: a year that is not a number ends the web server. -/
theorem C51_bad_year_crashes (mk : Int → Time) (exec : ClientFSS → Res U32) (req : Request) (hparse : req.parse = ok ())
    (hne : req.value "year" ≠ "") (hbad : ¬ ∃ y, Numeral (req.value "year") y) :
    (handleCountTimestamp mk exec req).isCrash := by
  have hbad : (atoi (req.value "year").toList).isErr := (atoi_isErr _).2 hbad
  unfold handleCountTimestamp toCreationTime
  rw [hparse]
  dsimp only
  rw [if_neg hne]
  cases hat : atoi (req.value "year").toList with
  | ok y => rw [hat] at hbad; simp at hbad
  | err m => simp
  | crash m => simp

/-- C51: without failures the pages write the count of the query and nothing else. -/
theorem C51_success (mk : Int → Time) (exec : ClientFSS → Res U32) (req : Request) (w : List Write)
    (hsucc : ∀ q, ¬ (exec q).isErr) :
    (handleCountAlgo exec req = ok w → (∃ n q, exec q = ok n ∧ w = [.count n]) ∨ ∃ c m, w = [.error c m]) ∧
    (handleCountTimestamp mk exec req = ok w → (∃ n q, exec q = ok n ∧ w = [.count n]) ∨ ∃ c m, w = [.error c m]) := by
  constructor
  · intro h
    unfold handleCountAlgo at h
    split at h
    · cases h
    · right; exact ⟨_, _, by simpa using h.symm⟩
    dsimp only at h
    split at h
    · right; exact ⟨_, _, by simpa using h.symm⟩
    obtain ⟨q, -, h⟩ := bind_eq_ok.mp h
    split at h
    · cases h
    · rename_i m hm
      exact absurd (by rw [hm]; simp) (hsucc q)
    · rename_i n hn
      left
      exact ⟨n, q, hn, by simpa using h.symm⟩
  · intro h
    unfold handleCountTimestamp at h
    split at h
    · cases h
    · right; exact ⟨_, _, by simpa using h.symm⟩
    dsimp only at h
    split at h
    · right; exact ⟨_, _, by simpa using h.symm⟩
    obtain ⟨q, -, h⟩ := bind_eq_ok.mp h
    split at h
    · cases h
    · rename_i m hm
      exact absurd (by rw [hm]; simp) (hsucc q)
    · rename_i n hn
      left
      exact ⟨n, q, hn, by simpa using h.symm⟩

/-- C51 as claimed is false. -/
theorem C51_refuted : ¬ C51_Statement := by
  intro h
  have h1 := (h id (fun d => ⟨d, ok []⟩) (fun _ => err "x") ⟨ok (), fun _ => "RSA"⟩ (by simp) (fun _ => ⟨_, rfl⟩)).2.1
  obtain ⟨c, m, h1⟩ := h1
  obtain ⟨m', h2⟩ := (C51_count_after_error (fun d => ⟨d, ok []⟩) (fun _ => err "x") ⟨ok (), fun _ => "RSA"⟩ rfl
    (by simp)).1 (by decide)
  rw [h2] at h1
  simp at h1

/-- A request that counts, and one with a year that is not a number. -/
example : handleCountAlgo (fun _ => ok 3) ⟨ok (), fun _ => "RSA"⟩ = ok [.count 3] ∧
    (¬ ∃ y, Numeral "next" y) ∧ Numeral "2021" 2021 :=
  ⟨rfl, (atoi_isErr _).1 (by decide), (atoi_iff _ _).1 (by decide)⟩

/-! ### C52: splitting a dump -/

/-- Size of a sequence of keys. -/
def totalSize (l : List Pgp.Key) : Nat := (l.map (fun k => k.packet.length + k.id.length)).sum

/-- A finished chunk: over the limit, but not without its last key. -/
def Full (limit : Nat) (f : List Pgp.Key) : Prop := limit < totalSize f ∧ totalSize f.dropLast ≤ limit

structure ChunkInv (limit : Nat) (ks : List Pgp.Key) (c : Chunks) : Prop where
  content : c.finished.flatten ++ (c.current.getD []) = ks
  full : ∀ f ∈ c.finished, Full limit f
  written : c.written = totalSize (c.current.getD [])
  open_ : totalSize (c.current.getD []).dropLast ≤ limit
  first : c.current = none → c.finished = []

theorem newChunk_inv {limit : Nat} {ks : List Pgp.Key} {c : Chunks} (h : ChunkInv limit ks c) :
    ChunkInv limit ks (newChunk limit c) ∧ ∃ f, (newChunk limit c).current = some f ∧ totalSize f ≤ limit := by
  unfold newChunk
  cases hc : c.current with
  | none =>
    have h1 := h.content
    have h2 := h.first hc
    rw [hc, h2] at h1
    exact ⟨⟨by simpa [h2] using h1, h.full, rfl, by simp [totalSize], by simp⟩, [], rfl, by simp [totalSize]⟩
  | some f =>
    dsimp only
    have h1 := h.content
    have h2 := h.written
    have h3 := h.open_
    rw [hc] at h1 h2 h3
    simp only [Option.getD_some] at h1 h2 h3
    split
    · rename_i hw
      refine ⟨⟨by simpa using h1, ?_, rfl, by simp [totalSize], by simp⟩, [], rfl, by simp [totalSize]⟩
      intro g hg
      rcases List.mem_append.mp hg with hg | hg
      · exact h.full g hg
      · simp only [List.mem_singleton] at hg
        subst hg
        exact ⟨by omega, h3⟩
    · rename_i hw
      exact ⟨h, f, hc, by omega⟩

theorem fold_inv (limit : Nat) (keys done : List Pgp.Key) (c : Chunks) (h : ChunkInv limit done c) :
    ChunkInv limit (done ++ keys) (keys.foldl (fun c k =>
      let c := newChunk limit c
      { c with current := c.current.map (· ++ [k]), written := c.written + keySize k }) c) := by
  induction keys generalizing done c with
  | nil => simpa using h
  | cons k keys ih =>
    rw [List.foldl_cons]
    obtain ⟨hi, f, hf, hs⟩ := newChunk_inv h
    have := ih (done ++ [k]) { newChunk limit c with
        current := (newChunk limit c).current.map (· ++ [k]), written := (newChunk limit c).written + keySize k } (by
      have h1 := hi.content
      have h2 := hi.written
      rw [hf] at h1 h2
      simp only [Option.getD_some] at h1 h2
      refine ⟨?_, hi.full, ?_, ?_, ?_⟩
      · simp only [hf, Option.map_some, Option.getD_some]
        rw [← List.append_assoc, h1]
      · simp only [hf, Option.map_some, Option.getD_some, h2]
        simp [totalSize, keySize]
      · simp only [hf, Option.map_some, Option.getD_some, List.dropLast_concat]
        exact hs
      · simp [hf])
    simpa using this

theorem split_inv (limit : Nat) (keys : List Pgp.Key) (ending : Res Unit) : ∃ (done : List (List Pgp.Key)) (last : List Pgp.Key),
    (splitDump limit keys ending).1 = done ++ [last] ∧ (done ++ [last]).flatten = keys ∧
    (∀ f ∈ done, Full limit f) ∧ totalSize last ≤ limit := by
  have h0 := fold_inv limit keys [] ⟨[], none, 0⟩ ⟨by simp, by simp, rfl, by simp [totalSize], by simp⟩
  obtain ⟨hi, f, hf, hs⟩ := newChunk_inv h0
  refine ⟨_, f, ?_, ?_, hi.full, hs⟩
  · unfold splitDump
    dsimp only
    rw [hf]
    rfl
  · have := hi.content
    rw [hf] at this
    simpa using this

/-- C52: the chunks, in order, are the keys of the dump, for every dump, also one that breaks off. -/
theorem C52_content (limit : Nat) (keys : List Pgp.Key) (ending : Res Unit) :
    (splitDump limit keys ending).1.flatten = keys ∧ (splitDump limit keys ending).2 = ending := by
  obtain ⟨done, last, h1, h2, -, -⟩ := split_inv limit keys ending
  exact ⟨by rw [h1, h2], rfl⟩

/-- C52: reading the chunks back gives the keys. -/
theorem C52_read_back (limit : Nat) (keys : List Pgp.Key) (ending : Res Unit) :
    Pgp.loadKeysFromDisk ((splitDump limit keys ending).1.map ok) = ok keys := by
  have key : ∀ (l : List (List Pgp.Key)) (acc : List Pgp.Key),
      (l.map ok).foldlM (fun (keys : List Pgp.Key) (file : Res (List Pgp.Key)) => do
        let ks ← file
        ok (keys ++ ks)) acc = ok (acc ++ l.flatten) := by
    intro l
    induction l with
    | nil => intro acc; simp
    | cons f l ih =>
      intro acc
      rw [List.map_cons, List.foldlM_cons, ok_bind, ok_bind, ih]
      simp
  unfold Pgp.loadKeysFromDisk
  rw [key, (C52_content limit keys ending).1]
  simp

/-- C52: every chunk but the last is over the limit, by less than its last key; the last is not over it. -/
theorem C52_sizes (limit : Nat) (keys : List Pgp.Key) (ending : Res Unit) :
    (∀ f ∈ (splitDump limit keys ending).1.dropLast, limit < totalSize f ∧ totalSize f.dropLast ≤ limit) ∧
    ∃ last, (splitDump limit keys ending).1.getLast? = some last ∧ totalSize last ≤ limit := by
  obtain ⟨done, last, h1, -, h3, h4⟩ := split_inv limit keys ending
  rw [h1]
  refine ⟨?_, last, by simp, h4⟩
  intro f hf
  rw [List.dropLast_concat] at hf
  exact h3 f hf

/-- C52 with the limit of the program: if no key counts for more than `K` bytes, no file holds more than 100 MiB plus `K`,
and all files but the last hold more than 100 MiB, so that the number of files is at most the total size over 100 MiB, plus
one. -/
theorem C52_hundred_mb (K : Nat) (keys : List Pgp.Key) (ending : Res Unit)
    (hK : ∀ k ∈ keys, k.packet.length + k.id.length ≤ K) :
    (∀ f ∈ (splitDump hundredMb keys ending).1, totalSize f ≤ 100 * 2 ^ 20 + K) ∧
    (splitDump hundredMb keys ending).1.length ≤ totalSize keys / (100 * 2 ^ 20) + 1 := by
  obtain ⟨h1, last, hl, h2⟩ := C52_sizes hundredMb keys ending
  have h3 := (C52_content hundredMb keys ending).1
  generalize (splitDump hundredMb keys ending).1 = fs at h1 hl h2 h3
  have hm : hundredMb = 100 * 2 ^ 20 := by decide
  rw [hm] at h1 h2
  have hfs : fs = fs.dropLast ++ [last] := by
    have hne : fs ≠ [] := by rintro rfl; simp at hl
    rw [List.getLast?_eq_some_getLast hne] at hl
    simp only [Option.some.injEq] at hl
    rw [← hl, List.dropLast_concat_getLast]
  constructor
  · intro f hf
    rw [hfs, List.mem_append] at hf
    rcases hf with hf | hf
    · have hb := (h1 f hf).2
      have hk : ∀ k ∈ f, k.packet.length + k.id.length ≤ K := by
        intro k hk
        apply hK
        rw [← h3, List.mem_flatten]
        exact ⟨f, by rw [hfs]; simp [hf], hk⟩
      rcases List.eq_nil_or_concat f with rfl | ⟨f', k, rfl⟩
      · simp [totalSize]
      · have := hk k (by simp)
        simp only [List.concat_eq_append, List.dropLast_concat] at hb
        simp only [totalSize, List.concat_eq_append, List.map_append, List.sum_append, List.map_cons, List.map_nil,
          List.sum_cons, List.sum_nil] at hb ⊢
        omega
    · simp only [List.mem_singleton] at hf
      rw [hf]; omega
  · have key : ∀ (M : Nat) (l : List (List Pgp.Key)), (∀ f ∈ l, M < totalSize f) →
        l.length * M ≤ totalSize l.flatten := by
      intro M l
      induction l with
      | nil => intro _; simp
      | cons f l ih =>
        intro h
        have h5 := ih (fun g hg => h g (by simp [hg]))
        have h6 := h f (by simp)
        simp only [totalSize, List.flatten_cons, List.map_append, List.sum_append, List.length_cons] at h5 h6 ⊢
        rw [Nat.add_mul]
        omega
    have h4 := key _ fs.dropLast (fun f hf => (h1 f hf).1)
    have h5 : totalSize fs.dropLast.flatten ≤ totalSize keys := by
      rw [← h3]
      conv_rhs => rw [hfs]
      simp [totalSize]
    have h6 : fs.length = fs.dropLast.length + 1 := by
      conv_lhs => rw [hfs]
      simp
    rw [h6]
    have : fs.dropLast.length ≤ totalSize keys / (100 * 2 ^ 20) := by
      rw [Nat.le_div_iff_mul_le (by decide)]
      omega
    omega

/-- Keys of the size the importer keeps. -/
example : ∀ k ∈ [(⟨[97, 64, 98], List.replicate 8192 1⟩ : Pgp.Key)],
    k.packet.length + k.id.length ≤ 8192 + 400 := by
  intro k hk
  simp only [List.mem_singleton] at hk
  subst hk
  simp only [List.length_replicate]
  decide

/-- Three keys of two, two and one bytes and a limit of three bytes. -/
example : (splitDump 3 [⟨[1], [1]⟩, ⟨[2], [2]⟩, ⟨[3], []⟩] (ok ())).1 = [[⟨[1], [1]⟩, ⟨[2], [2]⟩], [⟨[3], []⟩]] := by
  decide

/-! ### C58: the files a server loads -/

/-- C58 as claimed: for every set of chunk files and every number of files asked for, the server loads that many chunks
from the first on, or reports an error. -/
def C58_Statement : Prop :=
  (∀ i j, i < j → chunkName i < chunkName j) ∧
  ∀ (sorted : List (List Char)) (n : Int), (∃ l, getSksFiles sorted n = ok l) ∨ (getSksFiles sorted n).isErr

theorem digit_lt {a b : Nat} (ha : a < 10) (hb : b < 10) : digit a < digit b ↔ a < b := by
  have h : ∀ a : Fin 10, ∀ b : Fin 10, digit a.1 < digit b.1 ↔ a.1 < b.1 := by decide
  exact h ⟨a, ha⟩ ⟨b, hb⟩

/-- C58: the names of the first thousand chunks sort in the order of the chunks. Missing from the full claim: further
chunks, for which it is false. -/
theorem C58_names_sorted_partial (i j : Nat) (hij : i < j) (hj : j < 1000) : chunkName i < chunkName j := by
  unfold chunkName
  rw [if_pos (by omega), if_pos hj]
  have h1 := digit_lt (a := i / 100) (b := j / 100) (by omega) (by omega)
  have h2 := digit_lt (a := i / 10 % 10) (b := j / 10 % 10) (by omega) (by omega)
  have h3 := digit_lt (a := i % 10) (b := j % 10) (by omega) (by omega)
  show 's' :: 'k' :: 's' :: '-' :: digit (i / 100) :: digit (i / 10 % 10) :: digit (i % 10) :: ".pgp".toList <
    's' :: 'k' :: 's' :: '-' :: digit (j / 100) :: digit (j / 10 % 10) :: digit (j % 10) :: ".pgp".toList
  simp only [List.cons_lt_cons_iff]
  refine Or.inr ⟨trivial, Or.inr ⟨trivial, Or.inr ⟨trivial, Or.inr ⟨trivial, ?_⟩⟩⟩⟩
  rcases Nat.lt_or_ge (i / 100) (j / 100) with ha | ha
  · exact Or.inl (h1.mpr ha)
  have ea : i / 100 = j / 100 := by omega
  refine Or.inr ⟨by rw [ea], ?_⟩
  rcases Nat.lt_or_ge (i / 10 % 10) (j / 10 % 10) with hb | hb
  · exact Or.inl (h2.mpr hb)
  have eb : i / 10 % 10 = j / 10 % 10 := by omega
  refine Or.inr ⟨by rw [eb], Or.inl (h3.mpr (by omega))⟩

/-- C58: the thousand and first chunk sorts before the thousandth. -/
theorem C58_thousand_and_first : chunkName 1000 < chunkName 999 := by decide

/-- C58: as many files as there are, or fewer, are taken from the front; any other number crashes the server. -/
theorem C58_files (sorted : List (List Char)) (n : Int) :
    (0 ≤ n ∧ n ≤ sorted.length → getSksFiles sorted n = ok (sorted.take n.toNat)) ∧
    (¬ (0 ≤ n ∧ n ≤ sorted.length) → (getSksFiles sorted n).isCrash) := by
  unfold getSksFiles
  constructor
  · rintro ⟨h1, h2⟩
    rw [if_neg (by omega), slice_of_le (by omega) (by omega)]
    simp
  · intro h
    split
    · simp
    · unfold slice
      rw [if_neg (by omega)]
      simp

/-- C58 as claimed is false. -/
theorem C58_refuted : ¬ C58_Statement := by
  intro h
  exact absurd (h.1 999 1000 (by omega)) (by decide)

example : chunkName 7 = "sks-007.pgp".toList ∧ getSksFiles [chunkName 0, chunkName 1] 1 = ok [chunkName 0] := by decide

end Verif.Cmd
