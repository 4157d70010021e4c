import Verif.Lemmas.Pgp

/-! # Lemmas about the hash table of keys -/

set_option linter.unusedSimpArgs false
namespace Verif.Pgp
open Res Verif.Pgp.Spec Verif.Database Verif.Merkle Verif.Merkle.Spec Verif.Padding Verif.Point Verif.Point.Spec
  Verif.MerklePir Verif.Layout

theorem hashToIndex_spec {hash : Str → List Byte} (hh : HashLong hash) {n : Nat} (h0 : 0 < n) (hn : n < 2 ^ 32)
    (id : Str) : hashToIndex hash id n = ok (position hash n id) := by
  have hl := hh id
  unfold hashToIndex position
  rw [slice_of_le (by omega) (by omega), ok_bind]
  simp only [List.drop_zero, Nat.sub_zero]
  have hl4 : ((hash id).take 4).length = 4 := by rw [List.length_take]; omega
  unfold getBE32
  rw [if_pos (by omega), ok_bind, if_neg (by omega)]
  have hlt := ofBE_lt ((hash id).take 4)
  rw [hl4] at hlt
  rw [BitVec.toNat_ofNat, List.take_of_length_le (by omega : ((hash id).take 4).length ≤ 4),
    Nat.mod_eq_of_lt (show ofBE ((hash id).take 4) < 2 ^ 32 by omega), Nat.mod_eq_of_lt hn]

theorem hashToIndex_zero (hash : Str → List Byte) (hh : HashLong hash) (id : Str) :
    (hashToIndex hash id 0).isCrash := by
  have hl := hh id
  unfold hashToIndex
  rw [slice_of_le (by omega) (by omega), ok_bind]
  unfold getBE32
  rw [if_pos (by simp; omega), ok_bind]
  trivial

theorem position_lt (hash : Str → List Byte) {n : Nat} (h : 0 < n) (id : Str) : position hash n id < n := Nat.mod_lt _ h

theorem bucket_append (hash : Str → List Byte) (n : Nat) (a b : List Key) (k : Nat) :
    bucket hash n (a ++ b) k = bucket hash n a k ++ bucket hash n b k := by
  simp [bucket]

theorem packets_append (a b : List Key) : packets (a ++ b) = packets a ++ packets b := by
  simp [packets]

/-- The table after processing `done`. -/
def TableOf (hash : Str → List Byte) (n : Nat) (done : List Key) (m : List (Nat × List Byte)) : Prop :=
  Distinct m ∧ ∀ k, mget m k = if bucket hash n done k = [] then none else some (packets (bucket hash n done k))

theorem makeHashTable_spec {hash : Str → List Byte} (hh : HashLong hash) {n : Nat} (h0 : 0 < n) (hn : n < 2 ^ 32)
    (keys : List Key) : ∃ ht, makeHashTable hash keys n = ok ht ∧ TableOf hash n keys ht := by
  have key : ∀ (l done : List Key) m, TableOf hash n done m →
      ∃ ht, l.foldlM (fun db (key : Key) => do
        let hashKey ← hashToIndex hash key.id n
        ok (mset db hashKey ((mget db hashKey).getD [] ++ key.packet))) m = ok ht ∧ TableOf hash n (done ++ l) ht := by
    intro l
    induction l with
    | nil => intro done m h; exact ⟨m, rfl, by simpa using h⟩
    | cons x l ih =>
      intro done m h
      obtain ⟨hd, hg⟩ := h
      have hstep : TableOf hash n (done ++ [x]) (mset m (position hash n x.id)
          ((mget m (position hash n x.id)).getD [] ++ x.packet)) := by
        refine ⟨distinct_mset hd _ _, fun k => ?_⟩
        rw [mget_mset, bucket_append]
        by_cases hk : k = position hash n x.id
        · subst hk
          have hb : bucket hash n [x] (position hash n x.id) = [x] := by simp [bucket]
          rw [if_pos rfl, hb, if_neg (by simp), packets_append, hg]
          congr 1
          by_cases he : bucket hash n done (position hash n x.id) = []
          · rw [if_pos he, he]
            simp [packets]
          · rw [if_neg he]
            simp [packets]
        · have hb : bucket hash n [x] k = [] := by simp [bucket, Ne.symm hk]
          rw [if_neg hk, hb, List.append_nil, hg]
      obtain ⟨ht, h1, h2⟩ := ih _ _ hstep
      refine ⟨ht, ?_, by simpa using h2⟩
      rw [List.foldlM_cons, hashToIndex_spec hh h0 hn, ok_bind, ok_bind]
      exact h1
  obtain ⟨ht, h1, h2⟩ := key keys [] [] ⟨by simp [Distinct], fun k => by simp [mget, bucket]⟩
  exact ⟨ht, h1, by simpa using h2⟩

theorem tableBlocks_spec (n : Nat) (entries : List (Nat × List Byte)) (hd : Distinct entries)
    (hlt : ∀ x ∈ entries, x.1 < n) :
    ∃ blocks, tableBlocks n entries = ok blocks ∧ blocks.length = n ∧
      ∀ k, k < n → blocks.getD k [] = match mget entries k with
        | none => []
        | some v => padWithSignalByte v := by
  have key : ∀ (entries : List (Nat × List Byte)) (b0 : List (List Byte)), b0.length = n → Distinct entries →
      (∀ x ∈ entries, x.1 < n) →
      ∃ blocks, entries.foldlM (fun blocks (x : Nat × List Byte) => setAt blocks x.1 (padWithSignalByte x.2)) b0 =
        ok blocks ∧ blocks.length = n ∧ ∀ k, k < n → blocks.getD k [] = match mget entries k with
        | none => b0.getD k []
        | some v => padWithSignalByte v := by
    intro entries
    induction entries with
    | nil => intro b0 h _ _; exact ⟨b0, rfl, h, fun k _ => rfl⟩
    | cons x es ih =>
      intro b0 hl hd hlt
      obtain ⟨a, v⟩ := x
      have ha : a < n := hlt (a, v) (by simp)
      obtain ⟨b, h1, h2, h3⟩ := ih (b0.set a (padWithSignalByte v)) (by simpa using hl) (List.nodup_cons.mp hd).2
        (fun y hy => hlt y (List.mem_cons_of_mem _ hy))
      refine ⟨b, ?_, h2, fun k hk => ?_⟩
      · rw [List.foldlM_cons, setAt_of_lt (by omega), ok_bind]
        exact h1
      · rw [h3 k hk]
        by_cases hka : k = a
        · subst hka
          have hnone : mget es k = none := by
            cases hg : mget es k with
            | none => rfl
            | some w =>
              have := (mget_eq_some (List.nodup_cons.mp hd).2 k w).mp hg
              exact absurd (List.mem_map_of_mem (f := (·.1)) this) (List.nodup_cons.mp hd).1
          have hself : mget ((k, v) :: es) k = some v := by simp [mget]
          rw [hnone, hself]
          simp [List.getD, hl, ha]
        · have hother : mget ((a, v) :: es) k = mget es k := by
            unfold mget
            rw [List.find?_cons_of_neg (by simpa using Ne.symm hka)]
          rw [hother]
          cases mget es k with
          | none => simp [List.getD, List.getElem?_set_ne (Ne.symm hka)]
          | some w => rfl
  obtain ⟨b, h1, h2, h3⟩ := key entries (List.replicate n []) (by simp) hd hlt
  refine ⟨b, h1, h2, fun k hk => ?_⟩
  rw [h3 k hk]
  cases mget entries k with
  | none => simp [List.getD, hk]
  | some w => rfl

/-- The blocks do not depend on the order in which the table is enumerated. -/
theorem table_eq {hash : Str → List Byte} {n : Nat} (h0 : 0 < n) {keys : List Key}
    {ht : List (Nat × List Byte)} (h : TableOf hash n keys ht) {es : List (Nat × List Byte)} (hp : es.Perm ht) :
    tableBlocks n es = ok (storedBlocks hash n keys) := by
  obtain ⟨hd, hg⟩ := h
  have hd' : Distinct es := (List.Perm.nodup_iff (hp.map (fun e : Nat × List Byte => e.1))).mpr hd
  have hlt : ∀ x ∈ es, x.1 < n := by
    rintro ⟨k, v⟩ hx
    have := (mget_eq_some hd k v).mpr (hp.mem_iff.mp hx)
    rw [hg] at this
    split at this
    · cases this
    · rename_i hne
      obtain ⟨x, hx⟩ := List.exists_mem_of_ne_nil _ hne
      have := (List.mem_filter.mp hx).2
      simp only [decide_eq_true_iff] at this
      rw [← this]
      exact position_lt hash h0 _
  obtain ⟨b, h1, h2, h3⟩ := tableBlocks_spec n es hd' hlt
  rw [h1]
  congr 1
  apply List.ext_getElem
  · simp [storedBlocks, h2]
  · intro k hk1 hk2
    have hk : k < n := by omega
    have := h3 k hk
    rw [mget_perm hd hp, hg] at this
    have e : b.getD k [] = b[k] := by simp [List.getD, hk1]
    rw [e] at this
    rw [this]
    simp only [storedBlocks, List.getElem_map, List.getElem_range, storedBlock]
    by_cases hb : bucket hash n keys k = [] <;> simp [hb, padWithSignalByte]

theorem max_spec (vs : List (List Byte)) :
    (∀ v ∈ vs, v.length ≤ maxBytesLength vs) ∧ (maxBytesLength vs = 0 ∨ ∃ v ∈ vs, v.length = maxBytesLength vs) := by
  have key : ∀ (l : List (List Byte)) (a : Nat),
      let r := l.foldl (fun max v => if max < v.length then v.length else max) a
      a ≤ r ∧ (∀ v ∈ l, v.length ≤ r) ∧ (r = a ∨ ∃ v ∈ l, v.length = r) := by
    intro l
    induction l with
    | nil => intro a; simp
    | cons x l ih =>
      intro a
      obtain ⟨h1, h2, h3⟩ := ih (if a < x.length then x.length else a)
      simp only [List.foldl_cons]
      refine ⟨?_, ?_, ?_⟩
      · split at h1 <;> split <;> omega
      · intro v hv
        rcases List.mem_cons.mp hv with rfl | hv
        · split at h1 <;> split <;> omega
        · exact h2 v hv
      · rcases h3 with h3 | ⟨v, hv, h3⟩
        · by_cases hx : a < x.length
          · rw [if_pos hx] at h3
            right
            exact ⟨x, by simp, by rw [if_pos hx]; exact h3.symm⟩
          · rw [if_neg hx] at h3
            left
            rw [if_neg hx]; exact h3
        · right
          exact ⟨v, List.mem_cons_of_mem _ hv, h3⟩
  obtain ⟨-, h2, h3⟩ := key vs 0
  exact ⟨h2, h3⟩

theorem max_unique {vs : List (List Byte)} {B : Nat} (h1 : ∀ v ∈ vs, v.length ≤ B) (h2 : B = 0 ∨ ∃ v ∈ vs, v.length = B) :
    maxBytesLength vs = B := by
  obtain ⟨m1, m2⟩ := max_spec vs
  apply le_antisymm
  · rcases m2 with h | ⟨v, hv, h⟩
    · omega
    · rw [← h]; exact h1 v hv
  · rcases h2 with h | ⟨v, hv, h⟩
    · omega
    · rw [← h]; exact m1 v hv

/-- Length of the longest bucket. -/
def longest (hash : Str → List Byte) (n : Nat) (keys : List Key) : Nat :=
  maxBytesLength ((List.range n).map (fun k => packets (bucket hash n keys k)))

theorem longest_eq {hash : Str → List Byte} {n : Nat} (h0 : 0 < n) {keys : List Key}
    {ht : List (Nat × List Byte)} (h : TableOf hash n keys ht) {es : List (Nat × List Byte)} (hp : es.Perm ht) :
    maxBytesLength (es.map (·.2)) = longest hash n keys := by
  obtain ⟨hd, hg⟩ := h
  obtain ⟨m1, m2⟩ := max_spec ((List.range n).map (fun k => packets (bucket hash n keys k)))
  have hval : ∀ v, v ∈ es.map (·.2) ↔ ∃ k, k < n ∧ bucket hash n keys k ≠ [] ∧ v = packets (bucket hash n keys k) := by
    intro v
    rw [List.mem_map]
    constructor
    · rintro ⟨⟨k, v'⟩, hm, rfl⟩
      have := (mget_eq_some hd k v').mpr (hp.mem_iff.mp hm)
      rw [hg] at this
      split at this
      · cases this
      · rename_i hne
        simp only [Option.some.injEq] at this
        obtain ⟨x, hx⟩ := List.exists_mem_of_ne_nil _ hne
        have hx2 := (List.mem_filter.mp hx).2
        simp only [decide_eq_true_iff] at hx2
        exact ⟨k, by rw [← hx2]; exact position_lt hash h0 _, hne, this.symm⟩
    · rintro ⟨k, hk, hne, rfl⟩
      have : mget ht k = some (packets (bucket hash n keys k)) := by rw [hg, if_neg hne]
      exact ⟨(k, _), hp.mem_iff.mpr ((mget_eq_some hd k _).mp this), rfl⟩
  apply max_unique
  · intro v hv
    obtain ⟨k, hk, -, rfl⟩ := (hval v).mp hv
    exact m1 _ (List.mem_map.mpr ⟨k, by simpa using hk, rfl⟩)
  · rcases m2 with h | ⟨v, hv, h⟩
    · exact Or.inl h
    · obtain ⟨k, hk, rfl⟩ := List.mem_map.mp hv
      by_cases hne : bucket hash n keys k = []
      · left
        simp only [hne, packets, List.flatMap_nil, List.length_nil] at h
        exact h.symm
      · right
        exact ⟨_, (hval _).mpr ⟨k, by simpa using hk, hne, rfl⟩, h⟩

theorem storedBlock_length_le (hash : Str → List Byte) (n : Nat) (keys : List Key) (b : List Byte)
    (hb : b ∈ storedBlocks hash n keys) : b.length ≤ longest hash n keys + 1 := by
  obtain ⟨k, hk, rfl⟩ := List.mem_map.mp hb
  have := (max_spec ((List.range n).map (fun k => packets (bucket hash n keys k)))).1 _
    (List.mem_map.mpr ⟨k, hk, rfl⟩)
  unfold storedBlock longest
  split
  · simp
  · simp only [List.length_append, List.length_singleton]
    omega

theorem lens_loop (blocks : List (List Byte)) (n : Nat) (hn : blocks.length = n) :
    forLoop blocks.length (fun k (st : List Nat × List Byte) => do
      let block ← idx blocks k
      let lens ← setAt st.1 k block.length
      ok (lens, st.2 ++ block)) (List.replicate n 0, []) = ok (blocks.map List.length, blocks.flatten) := by
  have key : ∀ m, m ≤ blocks.length → forLoop m (fun k (st : List Nat × List Byte) => do
      let block ← idx blocks k
      let lens ← setAt st.1 k block.length
      ok (lens, st.2 ++ block)) (List.replicate n 0, []) =
      ok ((blocks.take m).map List.length ++ List.replicate (n - m) 0, (blocks.take m).flatten) := by
    intro m
    induction m with
    | zero => intro _; simp
    | succ m ih =>
      intro hm
      rw [forLoop_succ, ih (by omega), ok_bind, idx_of_lt (by omega), ok_bind]
      simp only
      rw [setAt_of_lt (by simp; omega), ok_bind]
      congr 2
      · obtain ⟨d, hd⟩ : ∃ d, n - m = d + 1 := ⟨n - m - 1, by omega⟩
        rw [hd, show n - (m + 1) = d by omega, List.replicate_succ, List.set_append_right _ _ (by simp)]
        rw [show m - ((blocks.take m).map List.length).length = 0 by simp; omega]
        rw [List.take_add_one, List.getElem?_eq_getElem (by omega), Option.toList_some, List.map_append,
          List.append_assoc]
        rfl
      · rw [List.take_add_one, List.getElem?_eq_getElem (by omega), Option.toList_some, List.flatten_append,
          List.flatten_singleton]
  have := key blocks.length (le_refl _)
  rw [this, List.take_length, hn]
  simp

/-! ### Independence of the order of enumeration -/

theorem max_perm {a b : List (List Byte)} (h : a.Perm b) : maxBytesLength a = maxBytesLength b := by
  obtain ⟨h1, h2⟩ := max_spec b
  apply max_unique
  · intro v hv; exact h1 v (h.mem_iff.mp hv)
  · rcases h2 with h2 | ⟨v, hv, h2⟩
    · exact Or.inl h2
    · exact Or.inr ⟨v, h.mem_iff.mpr hv, h2⟩

theorem tableBlocks_perm {n : Nat} {ht es : List (Nat × List Byte)} (hd : Distinct ht) (hlt : ∀ x ∈ ht, x.1 < n)
    (hp : es.Perm ht) : tableBlocks n es = tableBlocks n ht := by
  have hd' : Distinct es := (List.Perm.nodup_iff (hp.map (fun e : Nat × List Byte => e.1))).mpr hd
  obtain ⟨b, h1, h2, h3⟩ := tableBlocks_spec n ht hd hlt
  obtain ⟨b', h1', h2', h3'⟩ := tableBlocks_spec n es hd' (fun x hx => hlt x (hp.mem_iff.mp hx))
  rw [h1, h1']
  congr 1
  apply List.ext_getElem (by omega)
  intro k hk1 hk2
  have e1 := h3 k (by omega)
  have e2 := h3' k (by omega)
  rw [mget_perm hd hp] at e2
  have e := e2.trans e1.symm
  simpa [List.getD, hk1, hk2] using e

theorem makeHashTable_distinct {hash : Str → List Byte} {keys : List Key} {n : Nat} {ht : List (Nat × List Byte)}
    (h : makeHashTable hash keys n = ok ht) : Distinct ht ∧ ∀ x ∈ ht, x.1 < n := by
  have key : ∀ (l : List Key) (m ht : List (Nat × List Byte)), (Distinct m ∧ ∀ x ∈ m, x.1 < n) →
      l.foldlM (fun db (key : Key) => do
        let hashKey ← hashToIndex hash key.id n
        ok (mset db hashKey ((mget db hashKey).getD [] ++ key.packet))) m = ok ht →
      Distinct ht ∧ ∀ x ∈ ht, x.1 < n := by
    intro l
    induction l with
    | nil =>
      intro m ht hm h
      simp only [List.foldlM_nil, pure_eq, ok.injEq] at h
      exact h ▸ hm
    | cons k l ih =>
      intro m ht hm h
      rw [List.foldlM_cons] at h
      obtain ⟨m', h1, h2⟩ := (bind_eq_ok).mp h
      obtain ⟨p, hp, h1⟩ := (bind_eq_ok).mp h1
      simp only [ok.injEq] at h1
      subst h1
      refine ih _ _ ⟨distinct_mset hm.1 _ _, ?_⟩ h2
      have hpn : p < n := by
        unfold hashToIndex at hp
        obtain ⟨a, -, hp⟩ := (bind_eq_ok).mp hp
        obtain ⟨b, -, hp⟩ := (bind_eq_ok).mp hp
        split at hp
        · cases hp
        · rename_i hz
          simp only [ok.injEq] at hp
          rw [← hp]
          exact lt_of_lt_of_le (Nat.mod_lt _ (by omega)) (Nat.mod_le _ _)
      intro x hx
      unfold mset at hx
      rcases List.mem_cons.mp hx with rfl | hx
      · exact hpn
      · exact hm.2 x (List.mem_filter.mp hx).1
  exact key keys [] ht ⟨by simp [Distinct], by simp⟩ h

theorem bytes_orders (hash : Str → List Byte) (sort sort' : List Key → List Key) (order order' : Orders)
    (ho : OrdersFair order) (ho' : OrdersFair order') (loaded loaded' : List Key) (rebalanced : Bool)
    (hs : sort loaded = sort' loaded') :
    generateRealKeyBytes hash sort order loaded rebalanced =
      generateRealKeyBytes hash sort' order' loaded' rebalanced := by
  unfold generateRealKeyBytes
  dsimp only
  rw [← hs]
  cases hm : makeHashTable hash (sort loaded) _ with
  | err m => rfl
  | crash m => rfl
  | ok ht =>
    obtain ⟨hd, hlt⟩ := makeHashTable_distinct hm
    rw [ok_bind, ok_bind, tableBlocks_perm hd hlt (ho.2 ht), tableBlocks_perm hd hlt (ho'.2 ht),
      max_perm ((ho.1 ht).map _), max_perm ((ho'.1 ht).map _)]

theorem merkle_orders (H : List Byte → List Byte) (ck : List Byte → U64) (hash : Str → List Byte)
    (sort sort' : List Key → List Key) (order order' : Orders)
    (ho : OrdersFair order) (ho' : OrdersFair order') (loaded loaded' : List Key) (rebalanced : Bool)
    (hs : sort loaded = sort' loaded') :
    generateRealKeyMerkle H ck hash sort order loaded rebalanced =
      generateRealKeyMerkle H ck hash sort' order' loaded' rebalanced := by
  unfold generateRealKeyMerkle
  dsimp only
  rw [← hs]
  cases hm : makeHashTable hash (sort loaded) _ with
  | err m => rfl
  | crash m => rfl
  | ok ht =>
    obtain ⟨hd, hlt⟩ := makeHashTable_distinct hm
    rw [ok_bind, ok_bind, tableBlocks_perm hd hlt (ho.2 ht), tableBlocks_perm hd hlt (ho'.2 ht)]

/-- Distinct identifiers have one sorted arrangement. -/
theorem sorts_agree {sort sort' : List Key → List Key} (hs : SortsById sort) (hs' : SortsById sort')
    {l l' : List Key} (hp : l.Perm l') (hnd : (l.map (·.id)).Nodup) : sort l = sort' l' := by
  obtain ⟨p1, w1⟩ := hs l
  obtain ⟨p2, w2⟩ := hs' l'
  refine List.Perm.eq_of_pairwise ?_ w1 w2 (p1.trans (hp.trans p2.symm))
  intro a b ha hb h1 h2
  have hid : a.id = b.id := less_connected h1 h2
  exact List.inj_on_of_nodup_map hnd (p1.mem_iff.mp ha) (hp.mem_iff.mpr (p2.mem_iff.mp hb)) hid

/-- Rows and columns of the key databases. -/
def dims (loaded : List Key) (rebalanced : Bool) : Nat × Nat :=
  calculateNumRowsAndColumns (preSquareNumBlocks loaded.length) rebalanced

theorem generateRealKeyBytes_eq {hash : Str → List Byte} (hh : HashLong hash) {sort : List Key → List Key}
    (hs : SortsById sort) {order : Orders} (ho : OrdersFair order) (loaded : List Key) (h10 : 10 ≤ loaded.length)
    (h32 : loaded.length ≤ 2 ^ 32) (rebalanced : Bool) {R C : Nat} (hd : dims loaded rebalanced = (R, C)) :
    generateRealKeyBytes hash sort order loaded rebalanced =
      ok ⟨(storedBlocks hash (R * C) (sort loaded)).flatten,
        { numRows := R, numColumns := C, blockSize := longest hash (R * C) (sort loaded) + 1,
          blockLengths := (storedBlocks hash (R * C) (sort loaded)).map List.length,
          pirType := "", root := [], proofLen := 0 }⟩ := by
  have hlen : (sort loaded).length = loaded.length := (hs loaded).1.length_eq
  obtain ⟨t1, t2, -⟩ := table_size h32 rebalanced
  have t2 := t2 h10
  unfold dims at hd
  rw [hd] at t1 t2
  obtain ⟨ht, hm, hT⟩ := makeHashTable_spec hh (n := R * C) t2 t1 (sort loaded)
  unfold generateRealKeyBytes
  dsimp only
  rw [hlen, hd]
  dsimp only
  rw [hm, ok_bind, longest_eq t2 hT (ho.1 ht), table_eq t2 hT (ho.2 ht), ok_bind,
    lens_loop _ (R * C) (by simp [storedBlocks]), ok_bind]

end Verif.Pgp
