import Verif.Lemmas.PgpMerkle

/-! # The key database (C14, C15, C16, C17, C57) -/

set_option linter.unusedSimpArgs false
namespace Verif.Pgp
open Res Verif.Pgp.Spec Verif.Database Verif.Merkle Verif.Merkle.Spec Verif.Padding Verif.Point Verif.Point.Spec
  Verif.MerklePir Verif.Layout

/-! ### Concrete parameters for the examples -/

instance (a b : Str) : Decidable (Less a b) := by unfold Less; infer_instance

/-- Rearrangement in descending order of identifiers by insertion. -/
def sortDesc (l : List Key) : List Key := l.insertionSort (fun a b => ¬ Less a.id b.id)

theorem sortDesc_sorts : SortsById sortDesc := by
  intro l
  refine ⟨List.perm_insertionSort _ l, ?_⟩
  have : Std.Total (fun a b : Key => ¬ Less a.id b.id) := ⟨fun a b => by
    by_contra hc
    rw [not_or, not_not, not_not] at hc
    exact less_irrefl _ (less_trans hc.1 hc.2)⟩
  have : IsTrans Key (fun a b : Key => ¬ Less a.id b.id) := ⟨fun a b c h1 h2 => by
    unfold Less at *
    exact not_lt.mpr (le_trans (not_lt.mp h2) (not_lt.mp h1))⟩
  exact List.pairwise_insertionSort _ l

/-- The enumeration that reverses the table. -/
def reversed : Orders := ⟨List.reverse, List.reverse⟩

theorem reversed_fair : OrdersFair reversed := ⟨fun l => List.reverse_perm l, fun l => List.reverse_perm l⟩

/-- A toy hash: the length of the identifier. -/
def lengthHash (s : Str) : List Byte := [0, 0, 0, BitVec.ofNat 8 s.length]

theorem lengthHash_long : HashLong lengthHash := fun _ => le_refl _

/-- Twenty keys with identifiers of two bytes and packets of one. -/
def twenty : List Key := (List.range 20).map (fun i => ⟨[BitVec.ofNat 8 i, 1], [BitVec.ofNat 8 i]⟩)

/-- The entity with the given e-mail. -/
def entityOf (email : Str) : Entity := ⟨0, email, [email], 0, [], []⟩

/-- The parser for packets of one byte. -/
def ringOfBytes (b : List Byte) : Res (List Entity) := ok (b.map (fun x => entityOf [x, 1]))

theorem twenty_parses : Parses ringOfBytes (fun k => entityOf k.id) twenty := by
  intro ks hne hks
  clear hne
  unfold ringOfBytes
  congr 1
  induction ks with
  | nil => rfl
  | cons k ks ih =>
    have := ih (fun x hx => hks x (List.mem_cons_of_mem _ hx))
    obtain ⟨i, -, rfl⟩ := List.mem_map.mp (hks k (by simp))
    simp only [packets, List.flatMap_cons, List.map_append, List.map_cons, List.map_nil] at this ⊢
    rw [this]
    rfl

theorem twenty_named : NamedBy id (fun k => entityOf k.id) twenty := by
  intro k hk
  obtain ⟨i, -, rfl⟩ := List.mem_map.mp hk
  exact Or.inl ⟨by simp [entityOf], rfl⟩

/-! ### C14: every key is in the block its identifier maps to -/

/-- C14 as claimed. -/
def C14_Statement : Prop :=
  ∀ (hash : Str → List Byte), HashLong hash → ∀ (sort : List Key → List Key), SortsById sort → ∀ (order : Orders),
    OrdersFair order → ∀ (loaded : List Key) (rebalanced : Bool), loaded ≠ [] → loaded.length ≤ 2 ^ 32 →
    ∃ db, generateRealKeyBytes hash sort order loaded rebalanced = ok db ∧ KeysFiled hash db (sort loaded)

/-- C14 for at least ten keys. Missing from the full claim: fewer keys, for which it is false. -/
theorem C14_filed_partial (hash : Str → List Byte) (hh : HashLong hash) (sort : List Key → List Key)
    (hs : SortsById sort) (order : Orders) (ho : OrdersFair order) (loaded : List Key) (rebalanced : Bool)
    (h10 : 10 ≤ loaded.length) (h32 : loaded.length ≤ 2 ^ 32) :
    ∃ db, generateRealKeyBytes hash sort order loaded rebalanced = ok db ∧ KeysFiled hash db (sort loaded) := by
  obtain ⟨-, t2, -⟩ := table_size h32 rebalanced
  have t2 := t2 h10
  obtain ⟨R, C, hd⟩ : ∃ R C, dims loaded rebalanced = (R, C) := ⟨_, _, rfl⟩
  have hd' := hd
  unfold dims at hd'
  rw [hd'] at t2
  refine ⟨_, generateRealKeyBytes_eq hh hs ho loaded h10 h32 rebalanced hd,
    storedBlocks hash (R * C) (sort loaded), ⟨by simp [storedBlocks], ⟨[], by simp⟩, rfl,
      fun b hb => storedBlock_length_le hash _ _ b hb⟩, by simpa [storedBlocks] using t2, ?_⟩
  intro p hp hne
  have hl : (storedBlocks hash (R * C) (sort loaded)).length = R * C := by simp [storedBlocks]
  have hb : (storedBlocks hash (R * C) (sort loaded))[p] = storedBlock hash (R * C) (sort loaded) p := by
    simp [storedBlocks]
  rw [hl] at hne ⊢
  rw [hb]
  unfold storedBlock zeroExtend
  rw [if_neg hne]
  exact unPad_signal _ _

/-- Every identifier is mapped to a position of such a database, and a key that was loaded is in its bucket. -/
theorem C14_contains_partial (hash : Str → List Byte) (hh : HashLong hash) (sort : List Key → List Key)
    (hs : SortsById sort) (order : Orders) (ho : OrdersFair order) (loaded : List Key) (rebalanced : Bool)
    (h10 : 10 ≤ loaded.length) (h32 : loaded.length ≤ 2 ^ 32) :
    ∃ db blocks, generateRealKeyBytes hash sort order loaded rebalanced = ok db ∧ Stores db blocks ∧
      ∀ k ∈ loaded, ∃ p before after, ∃ h : p < blocks.length,
        hashToIndex hash k.id (db.info.numRows * db.info.numColumns) = ok p ∧
        unPadBlock (zeroExtend db.info.blockSize blocks[p]) = ok (before ++ k.packet ++ after) := by
  obtain ⟨db, h1, blocks, h2, h3, h4⟩ := C14_filed_partial hash hh sort hs order ho loaded rebalanced h10 h32
  refine ⟨db, blocks, h1, h2, fun k hk => ?_⟩
  have hN : blocks.length < 2 ^ 32 := by
    obtain ⟨t1, -, -⟩ := table_size h32 rebalanced
    obtain ⟨R, C, hd⟩ : ∃ R C, dims loaded rebalanced = (R, C) := ⟨_, _, rfl⟩
    have hd' := hd
    unfold dims at hd'
    rw [hd'] at t1
    rw [generateRealKeyBytes_eq hh hs ho loaded h10 h32 rebalanced hd] at h1
    have := h2.count
    simp only [ok.injEq] at h1
    subst h1
    dsimp only at this t1
    omega
  have hmem : k ∈ bucket hash blocks.length (sort loaded) (position hash blocks.length k.id) :=
    List.mem_filter.mpr ⟨(hs loaded).1.mem_iff.mpr hk, by simp⟩
  obtain ⟨b, a, hba⟩ := List.append_of_mem hmem
  refine ⟨position hash blocks.length k.id, packets b, packets a, position_lt hash h3 k.id, ?_, ?_⟩
  · rw [← h2.count]
    exact hashToIndex_spec hh h3 hN k.id
  · rw [h4 _ (position_lt hash h3 k.id) (List.ne_nil_of_mem hmem), hba]
    simp [packets]

/-- With at least one and fewer than ten keys the table has no place, and both generators crash. -/
theorem C14_few_keys_crash (H : List Byte → List Byte) (ck : List Byte → U64) (hash : Str → List Byte)
    (hh : HashLong hash) (sort : List Key → List Key) (hs : SortsById sort) (order : Orders) (loaded : List Key)
    (rebalanced : Bool) (h0 : loaded ≠ []) (h10 : loaded.length < 10) :
    (generateRealKeyBytes hash sort order loaded rebalanced).isCrash ∧
      (generateRealKeyMerkle H ck hash sort order loaded rebalanced).isCrash := by
  have hlen : (sort loaded).length = loaded.length := (hs loaded).1.length_eq
  obtain ⟨-, -, t3⟩ := table_size (show loaded.length ≤ 2 ^ 32 by omega) rebalanced
  have t3 := t3 h10
  have hc : (makeHashTable hash (sort loaded) 0).isCrash := by
    obtain ⟨k, ks, hk⟩ := List.exists_cons_of_length_pos (l := sort loaded) (by
      rw [hlen]; exact List.length_pos_iff.mpr h0)
    rw [hk]
    unfold makeHashTable
    rw [List.foldlM_cons]
    exact isCrash_bind.mpr (Or.inl (isCrash_bind.mpr (Or.inl (hashToIndex_zero hash hh k.id))))
  constructor
  · unfold generateRealKeyBytes
    dsimp only
    rw [hlen, t3]
    exact isCrash_bind.mpr (Or.inl hc)
  · unfold generateRealKeyMerkle
    dsimp only
    rw [hlen, t3]
    exact isCrash_bind.mpr (Or.inl hc)

/-- C14 as claimed is false: one key. -/
theorem C14_refuted : ¬ C14_Statement := by
  intro h
  obtain ⟨db, h1, -⟩ := h lengthHash lengthHash_long sortDesc sortDesc_sorts reversed reversed_fair [⟨[1], [2]⟩] false
    (by simp) (by simp)
  have := (C14_few_keys_crash id fnv1a lengthHash lengthHash_long sortDesc sortDesc_sorts reversed [⟨[1], [2]⟩] false
    (by simp) (by simp)).1
  rw [h1] at this
  simp at this

theorem find_unique {lower : Str → Str} {parse : Key → Entity} {l : List Key} {k : Key} (hk : k ∈ l)
    (hn : ∀ x ∈ l, primaryEmail lower (parse x) = x.id) (hnd : (l.map (·.id)).Nodup) :
    (l.map parse).find? (fun e => primaryEmail lower e = k.id) = some (parse k) := by
  induction l with
  | nil => simp at hk
  | cons x l ih =>
    rw [List.map_cons, List.nodup_cons] at hnd
    rcases List.mem_cons.mp hk with rfl | hk
    · rw [List.map_cons, List.find?_cons_of_pos (by simpa using hn k (by simp))]
    · have hne : ¬ primaryEmail lower (parse x) = k.id := by
        rw [hn x (by simp)]
        intro he
        exact hnd.1 (he ▸ List.mem_map_of_mem hk)
      rw [List.map_cons, List.find?_cons_of_neg (by simpa using hne)]
      exact ih hk (fun y hy => hn y (List.mem_cons_of_mem _ hy)) hnd.2

/-- What a lookup gives on any database that serves the buckets of the keys. -/
theorem lookup {H : List Byte → List Byte} {db : Bytes} {hash : Str → List Byte} (hh : HashLong hash)
    {loaded keys : List Key} (hp : keys.Perm loaded) {R C : Nat} (hR : db.info.numRows = R)
    (hC : db.info.numColumns = C) (hS : Serves H db (storedBlocks hash (R * C) keys)) (h0 : 0 < R * C)
    (hN : R * C < 2 ^ 32) {dpf : Dpf} {read : Nat → Res (List Byte)} (hread : Delivers read) {mode n : Nat}
    (hfit : ServersFit dpf mode n) {lower : Str → Str} {readRing : List Byte → Res (List Entity)} {parse : Key → Entity}
    (hparse : Parses readRing parse loaded) (hnamed : NamedBy lower parse loaded) (armor : Entity → Res (List Byte)) :
    (∀ k ∈ loaded, (loaded.map (·.id)).Nodup →
      getKey H dpf read hash lower readRing armor mode db n k.id = armor (parse k)) ∧
    (∀ id, (∀ k ∈ loaded, k.id ≠ id) → (∃ k ∈ loaded, position hash (R * C) k.id = position hash (R * C) id) →
      getKey H dpf read hash lower readRing armor mode db n id = err "no key with the given email id is found") ∧
    (∀ id, (∀ k ∈ loaded, position hash (R * C) k.id ≠ position hash (R * C) id) →
      (getKey H dpf read hash lower readRing armor mode db n id).isCrash) := by
  have hbm : ∀ p k, k ∈ bucket hash (R * C) keys p → k ∈ loaded :=
    fun p k hk => hp.mem_iff.mp (List.mem_filter.mp hk).1
  have hname : ∀ k ∈ loaded, primaryEmail lower (parse k) = k.id := fun k hk => (filed_iff _ _ _).mp (hnamed k hk)
  refine ⟨fun k hk hnd => ?_, fun id habs hex => ?_, fun id hno => ?_⟩
  · have hmem : k ∈ bucket hash (R * C) keys (position hash (R * C) k.id) :=
      List.mem_filter.mpr ⟨hp.mem_iff.mpr hk, by simp⟩
    have hne := List.ne_nil_of_mem hmem
    rw [(getKey_eq hh hR hC hS h0 hN hread hfit lower readRing armor k.id).1 hne]
    unfold recoverKeyFromBlock
    rw [hparse _ hne (hbm _), ok_bind, find_unique hmem (fun x hx => hname x (hbm _ x hx))
      (((hp.map _).nodup_iff.mpr hnd).sublist (List.filter_sublist.map _))]
    rfl
  · obtain ⟨k, hk, hpos⟩ := hex
    have hmem : k ∈ bucket hash (R * C) keys (position hash (R * C) id) :=
      List.mem_filter.mpr ⟨hp.mem_iff.mpr hk, by simpa using hpos⟩
    have hne := List.ne_nil_of_mem hmem
    rw [(getKey_eq hh hR hC hS h0 hN hread hfit lower readRing armor id).1 hne]
    unfold recoverKeyFromBlock
    rw [hparse _ hne (hbm _), ok_bind]
    have : ((bucket hash (R * C) keys (position hash (R * C) id)).map parse).find?
        (fun e => primaryEmail lower e = id) = none := by
      rw [List.find?_eq_none]
      intro e he
      obtain ⟨x, hx, rfl⟩ := List.mem_map.mp he
      have hxl := hbm _ x hx
      simpa [hname x hxl] using habs x hxl
    rw [this]
    rfl
  · apply (getKey_eq hh hR hC hS h0 hN hread hfit lower readRing armor id).2
    rw [List.eq_nil_iff_forall_not_mem]
    intro k hk
    exact hno k (hbm _ k hk) (by simpa using (List.mem_filter.mp hk).2)

/-- C14 over the whole exchange: looking up the identifier of a loaded key gives that key. Missing from the full claim:
fewer than ten keys. -/
theorem C14_lookup_partial (H : List Byte → List Byte) (hash : Str → List Byte) (hh : HashLong hash)
    (sort : List Key → List Key) (hs : SortsById sort) (order : Orders) (ho : OrdersFair order) (loaded : List Key)
    (rebalanced : Bool) (h10 : 10 ≤ loaded.length) (h32 : loaded.length ≤ 2 ^ 32) (hnd : (loaded.map (·.id)).Nodup)
    (dpf : Dpf) (read : Nat → Res (List Byte)) (hread : Delivers read) (mode n : Nat) (hfit : ServersFit dpf mode n)
    (lower : Str → Str) (readRing : List Byte → Res (List Entity)) (parse : Key → Entity)
    (hparse : Parses readRing parse loaded) (hnamed : NamedBy lower parse loaded) (armor : Entity → Res (List Byte)) :
    ∃ db, generateRealKeyBytes hash sort order loaded rebalanced = ok db ∧
      ∀ k ∈ loaded, getKey H dpf read hash lower readRing armor mode db n k.id = armor (parse k) := by
  obtain ⟨t1, t2, -⟩ := table_size h32 rebalanced
  have t2 := t2 h10
  obtain ⟨R, C, hd⟩ : ∃ R C, dims loaded rebalanced = (R, C) := ⟨_, _, rfl⟩
  obtain ⟨db, h1, h2, h3, h4⟩ := serves_bytes (H := H) hh hs ho loaded h10 h32 rebalanced hd
  unfold dims at hd
  rw [hd] at t1 t2
  exact ⟨db, h1, fun k hk =>
    (lookup hh (hs loaded).1 h2 h3 h4 t2 t1 hread hfit hparse hnamed armor).1 k hk hnd⟩

/-- C14 for the authenticated database, when the checksums of the tree tell its blocks apart and the distinct blocks
need as many tree levels as all blocks. Missing from the full claim: the other cases, in which proofs cannot be made
(C07), and fewer than ten keys. -/
theorem C14_lookup_merkle_partial (H : List Byte → List Byte) (hH : ∀ s, (H s).length = 32) (ck : List Byte → U64)
    (hash : Str → List Byte) (hh : HashLong hash)
    (sort : List Key → List Key) (hs : SortsById sort) (order : Orders) (ho : OrdersFair order) (loaded : List Key)
    (rebalanced : Bool) (h10 : 10 ≤ loaded.length) (h32 : loaded.length ≤ 2 ^ 32) (hnd : (loaded.map (·.id)).Nodup)
    (R C : Nat) (hd : calculateNumRowsAndColumns (preSquareNumBlocks loaded.length) rebalanced = (R, C))
    (hsize : R * C ≤ 2 ^ 31) (hck : ChecksumsFaithful ck (storedBlocks hash (R * C) (sort loaded)))
    (hdist : Nat.clog 2 (storedBlocks hash (R * C) (sort loaded)).dedup.length = Nat.clog 2 (R * C))
    (dpf : Dpf) (read : Nat → Res (List Byte)) (hread : Delivers read) (mode n : Nat) (hfit : ServersFit dpf mode n)
    (lower : Str → Str) (readRing : List Byte → Res (List Entity)) (parse : Key → Entity)
    (hparse : Parses readRing parse loaded) (hnamed : NamedBy lower parse loaded) (armor : Entity → Res (List Byte)) :
    ∃ db, generateRealKeyMerkle H ck hash sort order loaded rebalanced = ok db ∧ db.info.pirType = "merkle" ∧
      ∀ k ∈ loaded, getKey H dpf read hash lower readRing armor mode db n k.id = armor (parse k) := by
  obtain ⟨t1, t2, -⟩ := table_size h32 rebalanced
  have t2 := t2 h10
  have hl : (storedBlocks hash (R * C) (sort loaded)).length = R * C := by simp [storedBlocks]
  rw [hd] at t1 t2
  obtain ⟨db, h1, h2, h3, h4⟩ := merkleOf_holds hH hl t2 hsize hck (by rw [hl]; exact hdist)
  refine ⟨db, ?_, h4.type, fun k hk =>
    (lookup hh (hs loaded).1 h2 h3 (Or.inr h4) t2 t1 hread hfit hparse hnamed armor).1 k hk hnd⟩
  rw [generateRealKeyMerkle_eq H ck hh hs ho loaded h10 h32 rebalanced hd]
  exact h1

/-- The hypotheses of the lookup theorems hold of twenty keys. -/
example : HashLong lengthHash ∧ SortsById sortDesc ∧ OrdersFair reversed ∧ 10 ≤ twenty.length ∧
    twenty.length ≤ 2 ^ 32 ∧ (twenty.map (·.id)).Nodup ∧ Parses ringOfBytes (fun k => entityOf k.id) twenty ∧
    NamedBy id (fun k => entityOf k.id) twenty :=
  ⟨lengthHash_long, sortDesc_sorts, reversed_fair, by decide, by decide, by decide, twenty_parses, twenty_named⟩

/-- So do those about the tree: the two blocks of that database are distinct. -/
example : calculateNumRowsAndColumns (preSquareNumBlocks twenty.length) false = (1, 2) ∧
    ChecksumsFaithful fnv1a (storedBlocks lengthHash (1 * 2) (sortDesc twenty)) ∧
    Nat.clog 2 (storedBlocks lengthHash (1 * 2) (sortDesc twenty)).dedup.length = Nat.clog 2 (1 * 2) := by
  unfold ChecksumsFaithful
  refine ⟨by decide, by decide, by decide⟩

/-! ### C15: all servers build the same database -/

/-- C15: the plain database depends on the set of loaded keys only. -/
theorem C15_bytes (hash : Str → List Byte) (sort sort' : List Key → List Key) (hs : SortsById sort)
    (hs' : SortsById sort') (order order' : Orders) (ho : OrdersFair order) (ho' : OrdersFair order')
    (loaded loaded' : List Key) (hp : loaded.Perm loaded') (hnd : (loaded.map (·.id)).Nodup) (rebalanced : Bool) :
    generateRealKeyBytes hash sort order loaded rebalanced =
      generateRealKeyBytes hash sort' order' loaded' rebalanced :=
  bytes_orders hash sort sort' order order' ho ho' loaded loaded' rebalanced (sorts_agree hs hs' hp hnd)

/-- C15: so does the authenticated database, with its root and proofs. -/
theorem C15_merkle (H : List Byte → List Byte) (ck : List Byte → U64) (hash : Str → List Byte)
    (sort sort' : List Key → List Key) (hs : SortsById sort)
    (hs' : SortsById sort') (order order' : Orders) (ho : OrdersFair order) (ho' : OrdersFair order')
    (loaded loaded' : List Key) (hp : loaded.Perm loaded') (hnd : (loaded.map (·.id)).Nodup) (rebalanced : Bool) :
    generateRealKeyMerkle H ck hash sort order loaded rebalanced =
      generateRealKeyMerkle H ck hash sort' order' loaded' rebalanced :=
  merkle_orders H ck hash sort sort' order order' ho ho' loaded loaded' rebalanced (sorts_agree hs hs' hp hnd)

/-- C15: and the database for complex queries. -/
theorem C15_keys {κ : Type} (info : List Byte → Res κ) (sort sort' : List Key → List Key) (hs : SortsById sort)
    (hs' : SortsById sort') (loaded loaded' : List Key) (hp : loaded.Perm loaded')
    (hnd : (loaded.map (·.id)).Nodup) : generateRealKeyDB info sort loaded = generateRealKeyDB info sort' loaded' := by
  unfold generateRealKeyDB
  rw [sorts_agree hs hs' hp hnd]

theorem load_ok (files : List (List Key)) : loadKeysFromDisk (files.map ok) = ok files.flatten := by
  have key : ∀ (files : List (List Key)) acc, (files.map ok).foldlM (fun keys (file : Res (List Key)) => do
      let ks ← file
      ok (keys ++ ks)) acc = ok (acc ++ files.flatten) := by
    intro files
    induction files with
    | nil => intro acc; simp
    | cons f fs ih =>
      intro acc
      rw [List.map_cons, List.foldlM_cons, ok_bind, ok_bind, ih]
      simp
  exact key files []

/-- C15: loading the same files in another order, or the same keys split differently into files, loads the same
keys. -/
theorem C15_files (files files' : List (List Key)) (hp : files.flatten.Perm files'.flatten) :
    ∃ loaded loaded', loadKeysFromDisk (files.map ok) = ok loaded ∧ loadKeysFromDisk (files'.map ok) = ok loaded' ∧
      loaded.Perm loaded' :=
  ⟨_, _, load_ok files, load_ok files', hp⟩

/-- C15: the condition on identifiers is needed: with two keys for one identifier the order of the files shows. -/
theorem C15_duplicates_matter : ∃ (sort : List Key → List Key) (loaded loaded' : List Key), SortsById sort ∧
    loaded.Perm loaded' ∧ generateRealKeyDB (fun p => ok p) sort loaded ≠ generateRealKeyDB (fun p => ok p) sort loaded' :=
  ⟨sortDesc, [⟨[1], [2]⟩, ⟨[1], [3]⟩], [⟨[1], [3]⟩, ⟨[1], [2]⟩], sortDesc_sorts, List.Perm.swap _ _ _, by decide⟩

/-- The hypotheses of C15 hold of the twenty keys in two orders, with two enumerations. -/
example : SortsById sortDesc ∧ OrdersFair reversed ∧ OrdersFair ⟨id, id⟩ ∧ twenty.Perm twenty.reverse ∧
    twenty ≠ twenty.reverse ∧ (twenty.map (·.id)).Nodup :=
  ⟨sortDesc_sorts, reversed_fair, ⟨fun _ => List.Perm.refl _, fun _ => List.Perm.refl _⟩,
    (List.reverse_perm _).symm, by decide, by decide⟩

/-! ### C16: looking up an absent identifier -/

/-- C16 as claimed: an absent identifier gives an error. -/
def C16_Statement : Prop :=
  ∀ (H : List Byte → List Byte) (hash : Str → List Byte), HashLong hash →
    ∀ (sort : List Key → List Key), SortsById sort → ∀ (order : Orders), OrdersFair order → ∀ (loaded : List Key)
    (rebalanced : Bool), 10 ≤ loaded.length → loaded.length ≤ 2 ^ 32 → ∀ (dpf : Dpf) (read : Nat → Res (List Byte)),
    Delivers read → ∀ (mode n : Nat), ServersFit dpf mode n →
    ∀ (lower : Str → Str) (readRing : List Byte → Res (List Entity)) (parse : Key → Entity),
    Parses readRing parse loaded → NamedBy lower parse loaded → ∀ (armor : Entity → Res (List Byte)) (db : Bytes),
    generateRealKeyBytes hash sort order loaded rebalanced = ok db →
    ∀ id, (∀ k ∈ loaded, k.id ≠ id) → (getKey H dpf read hash lower readRing armor mode db n id).isErr

/-- C16 when the bucket of the identifier is not empty; when it is, the client crashes. Missing from the full claim:
the second case, for which it is false. -/
theorem C16_absent_partial (H : List Byte → List Byte) (hash : Str → List Byte) (hh : HashLong hash)
    (sort : List Key → List Key) (hs : SortsById sort) (order : Orders) (ho : OrdersFair order) (loaded : List Key)
    (rebalanced : Bool) (h10 : 10 ≤ loaded.length) (h32 : loaded.length ≤ 2 ^ 32)
    (dpf : Dpf) (read : Nat → Res (List Byte)) (hread : Delivers read) (mode n : Nat) (hfit : ServersFit dpf mode n)
    (lower : Str → Str) (readRing : List Byte → Res (List Entity)) (parse : Key → Entity)
    (hparse : Parses readRing parse loaded) (hnamed : NamedBy lower parse loaded) (armor : Entity → Res (List Byte))
    (db : Bytes) (hdb : generateRealKeyBytes hash sort order loaded rebalanced = ok db) (id : Str)
    (habs : ∀ k ∈ loaded, k.id ≠ id) :
    let N := db.info.numRows * db.info.numColumns
    ((∃ k ∈ loaded, position hash N k.id = position hash N id) →
      getKey H dpf read hash lower readRing armor mode db n id = err "no key with the given email id is found") ∧
    ((∀ k ∈ loaded, position hash N k.id ≠ position hash N id) →
      (getKey H dpf read hash lower readRing armor mode db n id).isCrash) := by
  obtain ⟨t1, t2, -⟩ := table_size h32 rebalanced
  have t2 := t2 h10
  obtain ⟨R, C, hd⟩ : ∃ R C, dims loaded rebalanced = (R, C) := ⟨_, _, rfl⟩
  obtain ⟨db', h1, h2, h3, h4⟩ := serves_bytes (H := H) hh hs ho loaded h10 h32 rebalanced hd
  unfold dims at hd
  rw [hd] at t1 t2
  have : db' = db := by have := h1.symm.trans hdb; simpa using this
  subst this
  have hL := lookup hh (hs loaded).1 h2 h3 h4 t2 t1 hread hfit hparse hnamed armor
  intro N
  have hN : N = R * C := by simp only [N, h2, h3]
  rw [hN]
  exact ⟨hL.2.1 id habs, hL.2.2 id⟩

/-- C16 for the authenticated database: same behaviour. Missing from the full claim: identifiers with an empty bucket,
for which it is false, and databases whose proofs cannot be made (C07). -/
theorem C16_absent_merkle_partial (H : List Byte → List Byte) (hH : ∀ s, (H s).length = 32) (ck : List Byte → U64)
    (hash : Str → List Byte) (hh : HashLong hash)
    (sort : List Key → List Key) (hs : SortsById sort) (order : Orders) (ho : OrdersFair order) (loaded : List Key)
    (rebalanced : Bool) (h10 : 10 ≤ loaded.length) (h32 : loaded.length ≤ 2 ^ 32)
    (R C : Nat) (hd : calculateNumRowsAndColumns (preSquareNumBlocks loaded.length) rebalanced = (R, C))
    (hsize : R * C ≤ 2 ^ 31) (hck : ChecksumsFaithful ck (storedBlocks hash (R * C) (sort loaded)))
    (hdist : Nat.clog 2 (storedBlocks hash (R * C) (sort loaded)).dedup.length = Nat.clog 2 (R * C))
    (dpf : Dpf) (read : Nat → Res (List Byte)) (hread : Delivers read) (mode n : Nat) (hfit : ServersFit dpf mode n)
    (lower : Str → Str) (readRing : List Byte → Res (List Entity)) (parse : Key → Entity)
    (hparse : Parses readRing parse loaded) (hnamed : NamedBy lower parse loaded) (armor : Entity → Res (List Byte))
    (id : Str) (habs : ∀ k ∈ loaded, k.id ≠ id) :
    ∃ db, generateRealKeyMerkle H ck hash sort order loaded rebalanced = ok db ∧
      ((∃ k ∈ loaded, position hash (R * C) k.id = position hash (R * C) id) →
        getKey H dpf read hash lower readRing armor mode db n id = err "no key with the given email id is found") ∧
      ((∀ k ∈ loaded, position hash (R * C) k.id ≠ position hash (R * C) id) →
        (getKey H dpf read hash lower readRing armor mode db n id).isCrash) := by
  obtain ⟨t1, t2, -⟩ := table_size h32 rebalanced
  have t2 := t2 h10
  obtain ⟨db, h1, h2, h3, h4⟩ := serves_merkle hH hh hs ho loaded h10 h32 rebalanced hd hsize hck hdist
  rw [hd] at t1 t2
  have hL := lookup hh (hs loaded).1 h2 h3 h4 t2 t1 hread hfit hparse hnamed armor
  exact ⟨db, h1, hL.2.1 id habs, hL.2.2 id⟩

/-- C16 as claimed is false: twenty keys in one of two buckets, and an identifier of the other. -/
theorem C16_refuted : ¬ C16_Statement := by
  intro h
  obtain ⟨db, hdb, -⟩ := C14_filed_partial lengthHash lengthHash_long sortDesc sortDesc_sorts reversed reversed_fair
    twenty false (by decide) (by decide)
  have hfit : ServersFit ⟨fun _ _ => ok ([], []), fun _ _ => ok []⟩ 0 1 := Or.inl ⟨rfl, by decide, by decide⟩
  have habs : ∀ k ∈ twenty, k.id ≠ [9] := by decide
  have hE := h (fun s => s) lengthHash lengthHash_long sortDesc sortDesc_sorts reversed reversed_fair twenty false
    (by decide) (by decide) _ sevens sevens_delivers 0 1 hfit id ringOfBytes _ twenty_parses twenty_named
    (fun e => ok e.primary) db hdb [9] habs
  have hdims : db.info.numRows * db.info.numColumns = 2 := by
    have := generateRealKeyBytes_eq lengthHash_long sortDesc_sorts reversed_fair twenty (by decide) (by decide) false
      (R := 1) (C := 2) (by decide)
    rw [this] at hdb
    simp only [ok.injEq] at hdb
    subst hdb
    rfl
  have hC := (C16_absent_partial (fun s => s) lengthHash lengthHash_long sortDesc sortDesc_sorts reversed reversed_fair
    twenty false (by decide) (by decide) _ sevens sevens_delivers 0 1 hfit id ringOfBytes _ twenty_parses twenty_named
    (fun e => ok e.primary) db hdb [9] habs).2 (by rw [hdims]; decide)
  revert hE hC
  generalize getKey _ _ _ _ _ _ _ _ _ _ _ = r
  cases r <;> simp

/-- An absent identifier with a non-empty bucket: one of two bytes. -/
example : (∀ k ∈ twenty, k.id ≠ [200, 1]) ∧ ∃ k ∈ twenty, position lengthHash 2 k.id = position lengthHash 2 [200, 1] := by
  decide

/-! ### C17: the newest valid key of every e-mail -/

theorem newest_unique {lower : Str → Str} {es : List Entity} {email : Str} {e e' : Entity}
    (h : Newest lower es email e) (h' : Newest lower es email e') : e = e' := by
  obtain ⟨b, a, h1, h2, h3, h4⟩ := h
  obtain ⟨b', a', h1', h2', h3', h4'⟩ := h'
  rw [h1] at h1'
  rcases List.append_eq_append_iff.mp h1' with ⟨c, hc1, hc2⟩ | ⟨c, hc1, hc2⟩
  · cases c with
    | nil => simp only [List.nil_append, List.cons.injEq] at hc2; exact hc2.1
    | cons x c =>
      simp only [List.cons_append, List.cons.injEq] at hc2
      obtain ⟨rfl, rfl⟩ := hc2
      have l1 := h4 e' (by simp) h2'
      have l2 := h3' e (by rw [hc1]; simp) h2
      omega
  · cases c with
    | nil => simp only [List.nil_append, List.cons.injEq] at hc2; exact hc2.1.symm
    | cons x c =>
      simp only [List.cons_append, List.cons.injEq] at hc2
      obtain ⟨rfl, rfl⟩ := hc2
      have l1 := h4' e (by simp) h2
      have l2 := h3 e' (by rw [hc1]; simp) h2'
      omega

/-- C17: after processing the files, an e-mail has an entity iff it is not empty and some entity is eligible for it, and
then it is the first among the newest ones, without its subkeys. No e-mail occurs twice. -/
theorem C17_newest (lower : Str → Str) (files : List (List Entity)) :
    ∃ m, analyzeKeyDump lower (files.map ok) = ok m ∧ (m.map (·.1)).Nodup ∧ ∀ email,
      (∀ e, (email, e) ∈ m ↔ email ≠ [] ∧ ∃ e0, Newest lower files.flatten email e0 ∧ e = { e0 with subkeys := [] }) ∧
      ((∃ e, (email, e) ∈ m) ↔ email ≠ [] ∧ ∃ x ∈ files.flatten, Eligible lower email x) := by
  obtain ⟨m, h1, hI⟩ := analyze_spec lower files
  refine ⟨m, h1, hI.distinct, fun email => ?_⟩
  have hmem : ∀ e, (email, e) ∈ m ↔ mget m email = some e := fun e => (mget_eq_some hI.distinct email e).symm
  have hne : ∀ e, mget m email = some e → email ≠ [] := by
    rintro e he rfl
    rw [hI.nonempty] at he
    cases he
  have hpres : ∀ x ∈ files.flatten, Eligible lower email x → email ≠ [] → ∃ e, mget m email = some e := by
    intro x hx he h0
    cases hg : mget m email with
    | some e => exact ⟨e, rfl⟩
    | none => exact absurd he (hI.absent email h0 hg x hx)
  constructor
  · intro e
    rw [hmem]
    constructor
    · intro he
      exact ⟨hne e he, hI.present email e he⟩
    · rintro ⟨h0, e0, hN, rfl⟩
      obtain ⟨b, a, hfl, hel, -, -⟩ := id hN
      obtain ⟨e, he⟩ := hpres e0 (by rw [hfl]; simp) hel h0
      obtain ⟨e1, hN1, rfl⟩ := hI.present email e he
      rw [newest_unique hN hN1]
      exact he
  · constructor
    · rintro ⟨e, he⟩
      have he := (hmem e).mp he
      obtain ⟨e0, ⟨b, a, hfl, hel, -, -⟩, -⟩ := hI.present email e he
      exact ⟨hne e he, e0, by rw [hfl]; simp, hel⟩
    · rintro ⟨h0, x, hx, he⟩
      obtain ⟨e, hg⟩ := hpres x hx he h0
      exact ⟨e, (hmem e).mpr hg⟩

/-- C17: a file that cannot be read fails the whole import. -/
theorem C17_unreadable (lower : Str → Str) (before after : List (Res (List Entity))) (msg : String) :
    ¬ ∃ m, analyzeKeyDump lower (before ++ err msg :: after) = ok m := by
  rintro ⟨m, hm⟩
  unfold analyzeKeyDump at hm
  rw [List.foldlM_append] at hm
  obtain ⟨a, -, h⟩ := bind_eq_ok.mp hm
  rw [List.foldlM_cons] at h
  obtain ⟨b, h, -⟩ := bind_eq_ok.mp h
  cases h

/-- C17: the e-mail an entity is filed under does not depend on the order in which its identities are enumerated. -/
theorem C17_identity_order (lower : Str → Str) (e : Entity) (emails : List Str) (hp : emails.Perm e.emails) :
    primaryEmail lower { e with emails := emails } = primaryEmail lower e := by
  rw [← filed_iff]
  have := filed lower e
  unfold FiledUnder at this ⊢
  simpa only [hp.mem_iff] using this

theorem write_spec (ser : Entity → List Byte) (order : List (Str × Entity) → List (Str × Entity))
    (m : List (Str × Entity)) :
    writeKeysOnDisk (fun e => ok (ser e)) order m =
      ok (((order m).filter (fun x => decide ((ser x.2).length ≤ 8192))).map (fun x => ⟨x.1, ser x.2⟩)) := by
  have key : ∀ (l : List (Str × Entity)) (acc : List Key), l.foldlM (fun out (x : Str × Entity) => do
      let buf ← (ok (ser x.2) : Res (List Byte))
      if 8192 < buf.length then ok out else ok (out ++ [⟨x.1, buf⟩])) acc =
      ok (acc ++ (l.filter (fun x => decide ((ser x.2).length ≤ 8192))).map (fun x => (⟨x.1, ser x.2⟩ : Key))) := by
    intro l
    induction l with
    | nil => intro acc; simp
    | cons x l ih =>
      intro acc
      rw [List.foldlM_cons, ok_bind]
      by_cases hx : 8192 < (ser x.2).length
      · rw [if_pos hx, ok_bind, ih, List.filter_cons_of_neg (by simpa using hx)]
      · rw [if_neg hx, ok_bind, ih, List.filter_cons_of_pos (by simpa using hx)]
        simp
  have := key (order m) []
  simpa [writeKeysOnDisk] using this

/-- C17: what is written to disk are exactly the entities whose serialisation is at most 8192 bytes, each under its
e-mail, and no e-mail occurs twice. -/
theorem C17_written (ser : Entity → List Byte) (order : List (Str × Entity) → List (Str × Entity))
    (horder : Enumerates order) (m : List (Str × Entity)) (hm : (m.map (·.1)).Nodup) :
    ∃ keys, writeKeysOnDisk (fun e => ok (ser e)) order m = ok keys ∧ (keys.map (·.id)).Nodup ∧
      ∀ k, k ∈ keys ↔ ∃ e, (k.id, e) ∈ m ∧ k.packet = ser e ∧ (ser e).length ≤ 8192 := by
  refine ⟨_, write_spec ser order m, ?_, fun k => ?_⟩
  · rw [List.map_map]
    have h1 : ((order m).map (·.1)).Nodup := ((horder m).map _).nodup_iff.mpr hm
    exact h1.sublist (List.filter_sublist.map _)
  · rw [List.mem_map]
    constructor
    · rintro ⟨⟨a, e⟩, hx, rfl⟩
      obtain ⟨h1, h2⟩ := List.mem_filter.mp hx
      exact ⟨e, (horder m).mem_iff.mp h1, rfl, by simpa using h2⟩
    · rintro ⟨e, h1, h2, h3⟩
      refine ⟨(k.id, e), List.mem_filter.mpr ⟨(horder m).mem_iff.mpr h1, by simpa using h3⟩, ?_⟩
      cases k
      simp only at h2
      rw [h2]

/-- Entities for which C17 says something: the second of two eligible ones is newer, a revoked one is newer still. -/
example : Newest id [⟨0, [97], [], 1, [], []⟩, ⟨0, [97], [], 2, [], []⟩, ⟨1, [97], [], 3, [], []⟩] [97]
    ⟨0, [97], [], 2, [], []⟩ := by
  refine ⟨[⟨0, [97], [], 1, [], []⟩], [⟨1, [97], [], 3, [], []⟩], rfl, ⟨rfl, Or.inl ⟨by simp, rfl⟩⟩, ?_, ?_⟩
  · intro x hx _
    simp only [List.mem_singleton] at hx
    subst hx
    decide
  · intro x hx he
    simp only [List.mem_singleton] at hx
    subst hx
    exact absurd he.1 (by decide)

/-- The hypotheses of `C17_identity_order` and `C17_written` in a concrete case. -/
example : ([[98], [97]] : List Str).Perm (⟨0, [], [[97], [98]], 1, [], []⟩ : Entity).emails ∧
    Enumerates (List.reverse (α := Str × Entity)) ∧ ([([97], entityOf [97]), ([98], entityOf [98])].map (·.1)).Nodup :=
  ⟨List.Perm.swap _ _ _, List.reverse_perm, by decide⟩

/-! ### C57: from the dump to the answer of a lookup -/

/-- What importing a dump and writing it to disk leaves behind: keys with distinct identifiers, which the parser reads back
as the entities they were made of, one for the newest valid entity of every e-mail if it is not too large. -/
theorem stored_from_dump (lower : Str → Str) (dump : List (List Entity)) (ser : Entity → List Byte)
    (worder : List (Str × Entity) → List (Str × Entity)) (hw : Enumerates worder)
    (readRing : List Byte → Res (List Entity)) :
    ∃ m keys, analyzeKeyDump lower (dump.map ok) = ok m ∧ writeKeysOnDisk (fun e => ok (ser e)) worder m = ok keys ∧
      (keys.map (·.id)).Nodup ∧
      ((∀ es : List Entity, es ≠ [] → (∀ e ∈ es, ∃ email, (email, e) ∈ m) → readRing (es.flatMap ser) = ok es) →
        ∃ parse, Parses readRing parse keys ∧ NamedBy lower parse keys ∧
          (∀ k ∈ keys, ∃ e, Newest lower dump.flatten k.id e ∧ k.packet = ser { e with subkeys := [] } ∧
            parse k = { e with subkeys := [] } ∧ k.id ≠ [] ∧ k.packet.length ≤ 8192) ∧
          ∀ email e, email ≠ [] → Newest lower dump.flatten email e → (ser { e with subkeys := [] }).length ≤ 8192 →
            (⟨email, ser { e with subkeys := [] }⟩ : Key) ∈ keys ∧
            parse ⟨email, ser { e with subkeys := [] }⟩ = { e with subkeys := [] }) := by
  obtain ⟨m, hm, hmn, hme⟩ := C17_newest lower dump
  obtain ⟨keys, hk, hkn, hkm⟩ := C17_written ser worder hw m hmn
  refine ⟨m, keys, hm, hk, hkn, ?_⟩
  intro hring
  have hback : ∀ k : Key, ∃ e : Entity, k ∈ keys → (k.id, e) ∈ m ∧ k.packet = ser e ∧ (ser e).length ≤ 8192 := by
    intro k
    by_cases hkc : k ∈ keys
    · obtain ⟨e, h1, h2, h3⟩ := (hkm k).mp hkc
      exact ⟨e, fun _ => ⟨h1, h2, h3⟩⟩
    · exact ⟨entityOf [], fun h => absurd h hkc⟩
  choose parse hparse using hback
  refine ⟨parse, ?_, ?_, ?_, ?_⟩
  · intro ks hne hks
    have he : packets ks = (ks.map parse).flatMap ser := by
      unfold packets
      rw [List.flatMap_map]
      clear hne
      induction ks with
      | nil => rfl
      | cons k ks ih =>
        simp only [List.flatMap_cons]
        rw [ih (fun x hx => hks x (List.mem_cons_of_mem _ hx)), (hparse k (hks k (by simp))).2.1]
    rw [he]
    apply hring _ (by simpa using hne)
    intro e he
    obtain ⟨k, hk, rfl⟩ := List.mem_map.mp he
    exact ⟨k.id, (hparse k (hks k hk)).1⟩
  · intro k hk
    obtain ⟨-, e0, ⟨b, a, -, hel, -, -⟩, he⟩ := ((hme k.id).1 _).mp (hparse k hk).1
    rw [he]
    exact hel.2
  · intro k hk
    obtain ⟨h1, h2, h3⟩ := hparse k hk
    obtain ⟨h0, e0, hnew, he⟩ := ((hme k.id).1 _).mp h1
    refine ⟨e0, hnew, by rw [h2, he], he, h0, by rw [h2]; exact h3⟩
  · intro email e h0 hnew hsmall
    have hin : (email, { e with subkeys := [] }) ∈ m := ((hme email).1 _).mpr ⟨h0, e, hnew, rfl⟩
    have hkey : (⟨email, ser { e with subkeys := [] }⟩ : Key) ∈ keys := (hkm _).mpr ⟨_, hin, rfl, hsmall⟩
    refine ⟨hkey, ?_⟩
    have h2 := (hparse _ hkey).1
    have ha := (mget_eq_some hmn email _).mpr h2
    have hb := (mget_eq_some hmn email _).mpr hin
    rw [ha] at hb
    simpa using hb

/-- C57: after importing a dump, writing it to disk, splitting it into files, and building the plain database from them,
looking up an e-mail gives its newest valid entity without subkeys. Missing from the full claim: fewer than ten
keys, and entities of more than 8192 bytes, which are not stored. -/
theorem C57_lookup_newest_partial (lower : Str → Str) (dump : List (List Entity)) (ser : Entity → List Byte)
    (worder : List (Str × Entity) → List (Str × Entity)) (hw : Enumerates worder)
    (H : List Byte → List Byte) (hash : Str → List Byte) (hh : HashLong hash)
    (sort : List Key → List Key) (hs : SortsById sort) (order : Orders) (ho : OrdersFair order) (rebalanced : Bool)
    (dpf : Dpf) (read : Nat → Res (List Byte)) (hread : Delivers read) (mode n : Nat) (hfit : ServersFit dpf mode n)
    (readRing : List Byte → Res (List Entity)) (armor : Entity → Res (List Byte)) :
    ∃ m keys, analyzeKeyDump lower (dump.map ok) = ok m ∧ writeKeysOnDisk (fun e => ok (ser e)) worder m = ok keys ∧
      ((∀ es : List Entity, es ≠ [] → (∀ e ∈ es, ∃ email, (email, e) ∈ m) → readRing (es.flatMap ser) = ok es) →
        ∀ chunks : List (List Key), chunks.flatten.Perm keys → 10 ≤ keys.length → keys.length ≤ 2 ^ 32 →
        ∃ loaded db, loadKeysFromDisk (chunks.map ok) = ok loaded ∧
          generateRealKeyBytes hash sort order loaded rebalanced = ok db ∧
          ∀ email e, email ≠ [] → Newest lower dump.flatten email e → (ser { e with subkeys := [] }).length ≤ 8192 →
            getKey H dpf read hash lower readRing armor mode db n email = armor { e with subkeys := [] }) := by
  obtain ⟨m, keys, hm, hk, hkn, hrest⟩ := stored_from_dump lower dump ser worder hw readRing
  refine ⟨m, keys, hm, hk, ?_⟩
  intro hring chunks hch h10 h32
  obtain ⟨parse, hP, hN, -, hnewest⟩ := hrest hring
  have hlen := hch.length_eq
  have hnd : (chunks.flatten.map (·.id)).Nodup := (hch.map _).nodup_iff.mpr hkn
  have hP' : Parses readRing parse chunks.flatten := fun ks hne hks => hP ks hne (fun k hk => hch.mem_iff.mp (hks k hk))
  have hN' : NamedBy lower parse chunks.flatten := fun k hk => hN k (hch.mem_iff.mp hk)
  obtain ⟨db, hdb, hlook⟩ := C14_lookup_partial H hash hh sort hs order ho chunks.flatten rebalanced (by omega) (by omega)
    hnd dpf read hread mode n hfit lower readRing parse hP' hN' armor
  refine ⟨_, db, load_ok chunks, hdb, ?_⟩
  intro email e h0 hnew hsmall
  obtain ⟨hkey, hpe⟩ := hnewest email e h0 hnew hsmall
  have h1 := hlook _ (hch.mem_iff.mpr hkey)
  rw [hpe] at h1
  exact h1

/-- A dump of twenty entities, in one file. -/
def exDump : List (List Entity) := [(List.range 20).map (fun i => entityOf [BitVec.ofNat 8 i, 1])]

/-- One-byte packets. -/
def exSer (e : Entity) : List Byte := e.primary.take 1

theorem exDump_ring (m : List (Str × Entity)) (hm : analyzeKeyDump id (exDump.map ok) = ok m) (es : List Entity)
    (hes : ∀ e ∈ es, ∃ email, (email, e) ∈ m) : ringOfBytes (es.flatMap exSer) = ok es := by
  have hm' : exDump.foldl (fun keys el => el.foldl (saveKeyIfValid id) keys) [] = m := by
    have : analyzeKeyDump id (exDump.map ok) = ok (exDump.foldl (fun keys el => el.foldl (saveKeyIfValid id) keys) []) := rfl
    rw [this] at hm
    simpa using hm
  subst hm'
  unfold ringOfBytes
  congr 1
  have hall : ∀ x ∈ (exDump.foldl (fun keys el => el.foldl (saveKeyIfValid id) keys) []),
      x.2 = entityOf [x.2.primary.headD 0, 1] := by decide
  induction es with
  | nil => rfl
  | cons e es ih =>
    obtain ⟨email, he⟩ := hes e (by simp)
    have h1 : e = entityOf [e.primary.headD 0, 1] := hall (email, e) he
    have h2 := ih (fun x hx => hes x (List.mem_cons_of_mem _ hx))
    rw [List.flatMap_cons, List.map_append, h2]
    rw [h1]
    rfl

/-- A dump, a serialisation and a parser that meet the hypotheses of C57: twenty entities and one-byte packets. -/
example : ∃ (dump : List (List Entity)) (ser : Entity → List Byte) (readRing : List Byte → Res (List Entity))
    (m : List (Str × Entity)) (keys : List Key), analyzeKeyDump id (dump.map ok) = ok m ∧
    writeKeysOnDisk (fun e => ok (ser e)) List.reverse m = ok keys ∧ 10 ≤ keys.length ∧ keys.length ≤ 2 ^ 32 ∧
    (∀ es : List Entity, es ≠ [] → (∀ e ∈ es, ∃ email, (email, e) ∈ m) → readRing (es.flatMap ser) = ok es) :=
  ⟨exDump, exSer, ringOfBytes, _, _, rfl, write_spec _ _ _, by decide, by decide,
    fun es _ hes => exDump_ring _ rfl es hes⟩

end Verif.Pgp
