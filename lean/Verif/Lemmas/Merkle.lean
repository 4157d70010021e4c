import Verif.Spec.Merkle
import Mathlib.Data.List.Dedup
import Mathlib.Data.Nat.Bitwise

set_option linter.unusedSimpArgs false

/-! # Lemmas about Merkle trees -/

namespace Verif.Merkle
open Res Verif.Merkle.Spec

theorem clog_pow (n : Nat) : n ≤ 2 ^ Nat.clog 2 n := Nat.le_pow_clog (by omega) n

/-! ### The checksum map -/

theorem mapGet_set (m : CkMap) (k k' : U64) (v : Nat) :
    mapGet (mapSet m k v) k' = if k = k' then some v else mapGet m k' := by
  unfold mapGet mapSet
  by_cases h : k = k'
  · simp [h]
  · simp only [List.find?_cons, h, decide_false, Bool.false_eq_true, if_false]
    congr 1
    induction m with
    | nil => rfl
    | cons e m ih =>
      by_cases he : e.1 = k
      · have : ¬ e.1 = k' := fun h' => h (he ▸ h')
        simp only [List.filter_cons, he, ne_eq, not_true_eq_false, decide_false, Bool.false_eq_true, if_false]
        rw [List.find?_cons]
        simp only [this, decide_false]
        exact ih
      · rw [List.filter_cons, if_pos (by simpa using he), List.find?_cons, List.find?_cons]
        by_cases hk : e.1 = k'
        · simp [hk]
        · simp only [hk, decide_false]; exact ih

theorem mapSet_keys_nodup (m : CkMap) (k : U64) (v : Nat) (h : (m.map (·.1)).Nodup) :
    ((mapSet m k v).map (·.1)).Nodup := by
  unfold mapSet
  rw [List.map_cons, List.nodup_cons]
  constructor
  · simp only [List.mem_map, List.mem_filter, not_exists, not_and]
    rintro x ⟨_, hx⟩ rfl
    simp at hx
  · exact List.Nodup.sublist (List.Sublist.map _ List.filter_sublist) h

theorem mapSet_keys_mem (m : CkMap) (k k' : U64) (v : Nat) :
    k' ∈ (mapSet m k v).map (·.1) ↔ k' = k ∨ k' ∈ m.map (·.1) := by
  unfold mapSet
  simp only [List.map_cons, List.mem_cons, List.mem_map, List.mem_filter, ne_eq, decide_not, Bool.not_eq_eq_eq_not,
    Bool.not_true, decide_eq_false_iff_not]
  constructor
  · rintro (h | ⟨x, ⟨hx, -⟩, rfl⟩)
    · exact Or.inl h
    · exact Or.inr ⟨x, hx, rfl⟩
  · rintro (h | ⟨x, hx, rfl⟩)
    · exact Or.inl h
    · by_cases h : x.1 = k
      · exact Or.inl h
      · exact Or.inr ⟨x, ⟨hx, h⟩, rfl⟩

/-- What the checksum map of the first `n` records knows. -/
structure MapOf (ck : List Byte → U64) (data : List (List Byte)) (n : Nat) (m : CkMap) : Prop where
  sound : ∀ c i, mapGet m c = some i → ∃ h : i < data.length, i < n ∧ ck data[i] = c
  complete : ∀ i (h : i < data.length), i < n → ∃ j, mapGet m (ck data[i]) = some j
  last : ∀ c i, mapGet m c = some i → ∀ j (h : j < data.length), j < n → ck data[j] = c → j ≤ i
  nodup : (m.map (·.1)).Nodup
  keys : ∀ c, c ∈ m.map (·.1) ↔ ∃ i, ∃ h : i < data.length, i < n ∧ ck data[i] = c

theorem MapOf.zero (ck : List Byte → U64) (data : List (List Byte)) : MapOf ck data 0 [] :=
  ⟨by simp [mapGet], by simp, by simp [mapGet], by simp, by simp⟩

theorem MapOf.step {ck : List Byte → U64} {data : List (List Byte)} {n : Nat} {m : CkMap} (h : MapOf ck data n m)
    (hn : n < data.length) : MapOf ck data (n + 1) (mapSet m (ck data[n]) n) := by
  refine ⟨?_, ?_, ?_, mapSet_keys_nodup _ _ _ h.nodup, ?_⟩
  · intro c i hi
    rw [mapGet_set] at hi
    split at hi
    · rename_i hc
      simp only [Option.some.injEq] at hi
      subst hi
      exact ⟨hn, by omega, hc⟩
    · obtain ⟨h1, h2, h3⟩ := h.sound c i hi
      exact ⟨h1, by omega, h3⟩
  · intro i hi hin
    rw [mapGet_set]
    split
    · exact ⟨n, rfl⟩
    · rename_i hne
      refine h.complete i hi ?_
      rcases Nat.lt_or_ge i n with h' | h'
      · exact h'
      · have : i = n := by omega
        subst this
        exact absurd rfl hne
  · intro c i hi j hj hjn hc
    rw [mapGet_set] at hi
    split at hi
    · simp only [Option.some.injEq] at hi
      omega
    · rename_i hne
      rcases Nat.lt_or_ge j n with h' | h'
      · exact h.last c i hi j hj h' hc
      · have : j = n := by omega
        subst this
        exact absurd hc hne
  · intro c
    rw [mapSet_keys_mem, h.keys]
    constructor
    · rintro (rfl | ⟨i, hi, hin, hc⟩)
      · exact ⟨n, hn, by omega, rfl⟩
      · exact ⟨i, hi, by omega, hc⟩
    · rintro ⟨i, hi, hin, hc⟩
      rcases Nat.lt_or_ge i n with h' | h'
      · exact Or.inr ⟨i, hi, h', hc⟩
      · have : i = n := by omega
        subst this
        exact Or.inl hc.symm

/-- The map has one entry per distinct checksum. -/
theorem MapOf.length {ck : List Byte → U64} {data : List (List Byte)} {m : CkMap} (h : MapOf ck data data.length m) :
    m.length = (data.map ck).dedup.length := by
  have hp : (m.map (·.1)).Perm (data.map ck).dedup := by
    apply (List.perm_ext_iff_of_nodup h.nodup (List.nodup_dedup _)).mpr
    intro c
    rw [h.keys, List.mem_dedup, List.mem_map]
    constructor
    · rintro ⟨i, hi, -, hc⟩
      exact ⟨_, List.getElem_mem hi, hc⟩
    · rintro ⟨d, hd, hc⟩
      obtain ⟨i, hi, rfl⟩ := List.getElem_of_mem hd
      exact ⟨i, hi, hi, hc⟩
  have := hp.length_eq
  simpa using this

/-! ### Construction -/

theorem indexToBytes_eq {i : Nat} (h : i < 2 ^ 32) : indexToBytes i = ok (putLE32 (BitVec.ofNat 32 i)) := by
  unfold indexToBytes
  rw [if_neg (by omega)]

/-- Everything the rest of the development needs about a tree. -/
structure IsTree (H : List Byte → List Byte) (hashLen : Nat) (ck : List Byte → U64) (data : List (List Byte))
    (t : Tree) : Prop where
  size : t.nodes.length = 2 * 2 ^ depth data
  nodes : ∀ l p, l ≤ depth data → p < 2 ^ (depth data - l) →
    t.nodes[2 ^ (depth data - l) + p]? = some (node H hashLen data l p)
  map : MapOf ck data data.length t.data

theorem pow_split {D l : Nat} (h : l + 1 ≤ D) : 2 ^ (D - l) = 2 * 2 ^ (D - (l + 1)) := by
  rw [show D - l = (D - (l + 1)) + 1 by omega, Nat.pow_succ, Nat.mul_comm]

theorem heap_index_inj {a b p q : Nat} (hp : p < 2 ^ a) (hq : q < 2 ^ b) (h : 2 ^ a + p = 2 ^ b + q) : a = b ∧ p = q := by
  have hab : a = b := by
    rcases Nat.lt_trichotomy a b with hlt | heq | hgt
    · have : 2 ^ (a + 1) ≤ 2 ^ b := Nat.pow_le_pow_right (by omega) hlt
      rw [Nat.pow_succ] at this
      omega
    · exact heq
    · have : 2 ^ (b + 1) ≤ 2 ^ a := Nat.pow_le_pow_right (by omega) hgt
      rw [Nat.pow_succ] at this
      omega
  subst hab
  exact ⟨rfl, by omega⟩

/-- Every index from 1 on is in the heap. -/
theorem heap_index {i : Nat} (hi : 0 < i) : ∃ a p, p < 2 ^ a ∧ i = 2 ^ a + p := by
  refine ⟨i.log2, i - 2 ^ i.log2, ?_, ?_⟩
  · have := Nat.lt_log2_self (n := i)
    rw [Nat.pow_succ] at this
    have := Nat.log2_self_le (n := i) (by omega)
    omega
  · have := Nat.log2_self_le (n := i) (by omega)
    omega

theorem newUsing_spec (H : List Byte → List Byte) (hashLen : Nat) (ck : List Byte → U64) (data : List (List Byte))
    (h0 : data ≠ []) (hsize : data.length ≤ 2 ^ 32) :
    ∃ t, newUsing H hashLen ck data = ok t ∧ IsTree H hashLen ck data t := by
  have hpos : 0 < data.length := List.length_pos_iff.mpr h0
  unfold newUsing
  rw [if_neg (by omega)]
  have hB : data.length ≤ 2 ^ depth data := clog_pow _
  have hce : ceilLog2 data.length = depth data := rfl
  simp only [hce]
  have hBpos : 0 < 2 ^ depth data := Nat.pow_pos (by omega)
  generalize hD : depth data = D at *
  generalize hBdef : 2 ^ D = B at *
  have hlen0 : B + data.length + (B - data.length) = 2 * B := by omega
  rw [hlen0]
  -- leaves
  obtain ⟨⟨ns1, m⟩, hl, hlen1, hns1, hm⟩ : ∃ st : List (List Byte) × CkMap,
      leaves H ck data B (List.replicate (2 * B) []) = ok st ∧ st.1.length = 2 * B ∧
      (∀ p, p < data.length → st.1[B + p]? = some (leafAt H hashLen data p)) ∧ MapOf ck data data.length st.2 := by
    unfold leaves
    obtain ⟨st, h1, h2, h3, h4⟩ := forLoop_inv (n := data.length)
      (body := fun i (st : List (List Byte) × CkMap) => do
        let d ← idx data i
        let ib ← indexToBytes i
        let nodes ← setAt st.1 (i + B) (H (d ++ ib))
        ok (nodes, mapSet st.2 (ck d) i))
      (s := (List.replicate (2 * B) ([] : List Byte), ([] : CkMap)))
      (fun n st => st.1.length = 2 * B ∧ (∀ p, p < n → st.1[B + p]? = some (leafAt H hashLen data p)) ∧
        MapOf ck data n st.2)
      ⟨by simp, by simp, MapOf.zero _ _⟩ (by
        rintro i ⟨ns, m⟩ hi ⟨g1, g2, g3⟩
        simp only at g1 g2 g3
        rw [idx_of_lt hi]
        simp only [ok_bind]
        rw [indexToBytes_eq (by omega)]
        simp only [ok_bind]
        rw [setAt_of_lt (by omega)]
        simp only [ok_bind]
        refine ⟨_, rfl, by simpa using g1, ?_, g3.step hi⟩
        intro p hp
        simp only
        by_cases hpi : p = i
        · subst hpi
          rw [show B + p = p + B by omega, List.getElem?_set_self (by omega)]
          simp [leafAt, hi]
        · rw [List.getElem?_set_ne (by omega)]
          exact g2 p (by omega))
    exact ⟨st, h1, h2, h3, h4⟩
  rw [hl]
  simp only [ok_bind]
  -- padding
  simp only at hlen1 hns1 hm
  obtain ⟨ns2, hp, hlen2, hns2⟩ := forLoop_inv (n := ns1.length - (data.length + B))
    (body := fun k ns => setAt ns (data.length + B + k) (List.replicate hashLen (0 : Byte))) (s := ns1)
    (fun k ns => ns.length = 2 * B ∧ ∀ p, p < data.length + k → p < B → ns[B + p]? = some (leafAt H hashLen data p))
    ⟨hlen1, fun p hp _ => hns1 p hp⟩ (by
      rintro k ns hk ⟨g1, g2⟩
      rw [setAt_of_lt (by omega)]
      refine ⟨_, rfl, by simpa using g1, ?_⟩
      intro p hp hpB
      by_cases hpi : p = data.length + k
      · subst hpi
        rw [show B + (data.length + k) = data.length + B + k by omega, List.getElem?_set_self (by omega)]
        simp [leafAt]
      · rw [List.getElem?_set_ne (by omega)]
        exact g2 p (by omega) hpB)
  rw [hp]
  simp only [ok_bind]
  have hns2' : ∀ p, p < B → ns2[B + p]? = some (leafAt H hashLen data p) := by
    intro p hpB
    exact hns2 p (by omega) hpB
  -- branches
  obtain ⟨ns3, hb, hlen3, hns3⟩ := forLoop_inv (n := B - 1)
    (body := fun k ns => do
      let i := B - 1 - k
      let l ← idx ns (i * 2)
      let r ← idx ns (i * 2 + 1)
      setAt ns i (H (l ++ r))) (s := ns2)
    (fun k ns => ns.length = 2 * B ∧ ∀ l p, l ≤ D → p < 2 ^ (D - l) → B - k ≤ 2 ^ (D - l) + p →
      ns[2 ^ (D - l) + p]? = some (node H hashLen data l p))
    ⟨hlen2, by
      intro l p hl hpl hge
      have hl0 : l = 0 := by
        rcases Nat.eq_zero_or_pos l with h | h
        · exact h
        · have : 2 ^ (D - l) * 2 ≤ B := by
            rw [← Nat.pow_succ, ← hBdef]
            exact Nat.pow_le_pow_right (by omega) (by omega)
          omega
      subst hl0
      rw [Nat.sub_zero, hBdef] at hpl ⊢
      exact hns2' p hpl⟩ (by
      rintro k ns hk ⟨g1, g2⟩
      have hi0 : 0 < B - 1 - k := by omega
      obtain ⟨a, p, hpa, hi⟩ := heap_index hi0
      have haD : a < D := by
        rcases Nat.lt_or_ge a D with h | h
        · exact h
        · have : B ≤ 2 ^ a := by rw [← hBdef]; exact Nat.pow_le_pow_right (by omega) h
          omega
      have hDl : D - (D - (a + 1)) = a + 1 := by omega
      have hpow : 2 ^ (a + 1) = 2 * 2 ^ a := by rw [Nat.pow_succ, Nat.mul_comm]
      have hL := g2 (D - (a + 1)) (2 * p) (by omega) (by rw [hDl, hpow]; omega) (by rw [hDl, hpow]; omega)
      have hR := g2 (D - (a + 1)) (2 * p + 1) (by omega) (by rw [hDl, hpow]; omega) (by rw [hDl, hpow]; omega)
      rw [hDl, hpow] at hL hR
      have eL : (B - 1 - k) * 2 = 2 * 2 ^ a + 2 * p := by omega
      have eR : (B - 1 - k) * 2 + 1 = 2 * 2 ^ a + (2 * p + 1) := by omega
      simp only [eL, eR, idx, hL, hR, ok_bind]
      rw [show 2 * 2 ^ a + 2 * p + 1 = 2 * 2 ^ a + (2 * p + 1) by omega, hR]
      simp only [ok_bind]
      rw [setAt_of_lt (by omega)]
      refine ⟨_, rfl, by simpa using g1, ?_⟩
      intro l q hl hql hge
      by_cases heq : 2 ^ (D - l) + q = B - 1 - k
      · rw [hi] at heq
        obtain ⟨h1, h2⟩ := heap_index_inj hql hpa heq
        subst h2
        rw [hi, ← heq, List.getElem?_set_self (by omega)]
        obtain ⟨l', hl'⟩ : ∃ l', l = l' + 1 := ⟨l - 1, by omega⟩
        subst hl'
        rw [show D - (a + 1) = l' by omega]
        rfl
      · rw [List.getElem?_set_ne (fun h => heq h.symm)]
        exact g2 l q hl hql (by omega))
  rw [hb]
  refine ⟨_, rfl, ?_, ?_, hm⟩
  · rw [hD, hBdef]; exact hlen3
  · intro l p hl hpl
    rw [hD] at hl hpl ⊢
    have : 0 < 2 ^ (D - l) := Nat.pow_pos (by omega)
    exact hns3 l p hl hpl (by omega)

/-! ### Proof generation -/

theorem xor_one (x : Nat) : x ^^^ 1 = sibling x := by
  unfold sibling
  split
  · exact Nat.xor_one_of_even (Nat.even_iff.mpr (by assumption))
  · exact Nat.xor_one_of_odd (Nat.odd_iff.mpr (by omega))

theorem sibling_add {a q : Nat} (ha : 0 < a) : sibling (2 ^ a + q) = 2 ^ a + sibling q := by
  obtain ⟨b, rfl⟩ : ∃ b, a = b + 1 := ⟨a - 1, by omega⟩
  unfold sibling
  rw [Nat.pow_succ]
  split <;> split <;> omega

theorem sibling_lt {a q : Nat} (ha : 0 < a) (h : q < 2 ^ a) : sibling q < 2 ^ a := by
  obtain ⟨b, rfl⟩ : ∃ b, a = b + 1 := ⟨a - 1, by omega⟩
  unfold sibling
  rw [Nat.pow_succ] at h ⊢
  split <;> omega

theorem half_heap {a q : Nat} : (2 ^ (a + 1) + q) / 2 = 2 ^ a + q / 2 := by
  rw [Nat.pow_succ]; omega

section Loop
variable {H : List Byte → List Byte} {hashLen : Nat} {ck : List Byte → U64} {data : List (List Byte)} {t : Tree}

theorem proofLoop_spec (ht : IsTree H hashLen ck data t) :
    ∀ a fuel q hashes, a < fuel → a ≤ depth data → q < 2 ^ a → depth data ≤ hashes.length →
      ∃ r, proofLoop t.nodes fuel (2 ^ a + q) (depth data - a) hashes = ok r ∧ r.length = hashes.length ∧
        (∀ l, l < depth data - a → r[l]? = hashes[l]?) ∧
        (∀ l, depth data - a ≤ l → l < depth data →
          r[l]? = some (node H hashLen data l (sibling (q / 2 ^ (l - (depth data - a)))))) := by
  intro a
  induction a with
  | zero =>
    intro fuel q hashes hf _ hq hlen
    obtain ⟨f, rfl⟩ : ∃ f, fuel = f + 1 := ⟨fuel - 1, by omega⟩
    have : q = 0 := by simpa using hq
    subst this
    unfold proofLoop
    rw [if_neg (by simp)]
    exact ⟨hashes, rfl, rfl, fun _ _ => rfl, fun l h1 h2 => by omega⟩
  | succ a ih =>
    intro fuel q hashes hf haD hq hlen
    obtain ⟨f, rfl⟩ : ∃ f, fuel = f + 1 := ⟨fuel - 1, by omega⟩
    unfold proofLoop
    have hpa : 0 < 2 ^ a := Nat.pow_pos (by omega)
    rw [if_pos (by rw [Nat.pow_succ]; omega)]
    have hn := ht.nodes (depth data - (a + 1)) (sibling q) (by omega)
      (by rw [show depth data - (depth data - (a + 1)) = a + 1 by omega]; exact sibling_lt (by omega) hq)
    rw [show depth data - (depth data - (a + 1)) = a + 1 by omega] at hn
    rw [xor_one, sibling_add (by omega)]
    simp only [idx, hn, ok_bind]
    rw [setAt_of_lt (by omega)]
    simp only [ok_bind]
    rw [half_heap, show depth data - (a + 1) + 1 = depth data - a by omega]
    obtain ⟨r, h1, h2, h3, h4⟩ := ih f (q / 2)
      (hashes.set (depth data - (a + 1)) (node H hashLen data (depth data - (a + 1)) (sibling q))) (by omega) (by omega)
      (by rw [Nat.pow_succ] at hq; omega) (by simpa using hlen)
    refine ⟨r, h1, by simpa using h2, ?_, ?_⟩
    · intro l hl
      rw [h3 l (by omega), List.getElem?_set_ne (by omega)]
    · intro l hl hlD
      by_cases hle : l = depth data - (a + 1)
      · subst hle
        rw [h3 _ (by omega), List.getElem?_set_self (by omega)]
        simp
      · rw [h4 l (by omega) hlD, Nat.div_div_eq_div_mul, ← Nat.pow_succ']
        rw [show (l - (depth data - a)).succ = l - (depth data - (a + 1)) by omega]

theorem proofLoop_crash (ht : IsTree H hashLen ck data t) :
    ∀ a fuel q hashes, a < fuel → a ≤ depth data → q < 2 ^ a → hashes.length < depth data →
      depth data - a ≤ hashes.length →
      (proofLoop t.nodes fuel (2 ^ a + q) (depth data - a) hashes).isCrash := by
  intro a
  induction a with
  | zero => intro fuel q hashes _ _ _ _ _; omega
  | succ a ih =>
    intro fuel q hashes hf haD hq hlen hle
    obtain ⟨f, rfl⟩ : ∃ f, fuel = f + 1 := ⟨fuel - 1, by omega⟩
    unfold proofLoop
    have hpa : 0 < 2 ^ a := Nat.pow_pos (by omega)
    rw [if_pos (by rw [Nat.pow_succ]; omega)]
    have hn := ht.nodes (depth data - (a + 1)) (sibling q) (by omega)
      (by rw [show depth data - (depth data - (a + 1)) = a + 1 by omega]; exact sibling_lt (by omega) hq)
    rw [show depth data - (depth data - (a + 1)) = a + 1 by omega] at hn
    rw [xor_one, sibling_add (by omega)]
    simp only [idx, hn, ok_bind]
    rcases Nat.lt_or_ge (depth data - (a + 1)) hashes.length with hlt | hge
    · rw [setAt_of_lt hlt]
      simp only [ok_bind]
      rw [half_heap, show depth data - (a + 1) + 1 = depth data - a by omega]
      exact ih f (q / 2) _ (by omega) (by omega) (by rw [Nat.pow_succ] at hq; omega) (by simpa using hlen)
        (by simp only [List.length_set]; omega)
    · unfold setAt
      rw [if_neg (by omega)]
      simp

end Loop

/-! ### Verification along a path -/

theorem parity_heap {a q : Nat} (ha : 0 < a) : (2 ^ a + q) % 2 = q % 2 := by
  obtain ⟨b, rfl⟩ : ∃ b, a = b + 1 := ⟨a - 1, by omega⟩
  rw [Nat.pow_succ]; omega

/-- Hashing a node with its sibling, level after level, gives the ancestors. -/
theorem fold_path (H : List Byte → List Byte) (hashLen : Nat) (data : List (List Byte)) :
    ∀ (hs : List (List Byte)) (l q : Nat),
      (∀ k, k < hs.length → hs[k]? = some (node H hashLen data (l + k) (sibling (q / 2 ^ k)))) →
      (hs.foldl (foldHash H) (node H hashLen data l q, 2 ^ hs.length + q)).1 =
        node H hashLen data (l + hs.length) (q / 2 ^ hs.length) := by
  intro hs
  induction hs with
  | nil => intro l q _; simp
  | cons h hs ih =>
    intro l q hk
    rw [List.foldl_cons]
    have h0 := hk 0 (by simp)
    simp only [List.getElem?_cons_zero, Option.some.injEq, Nat.add_zero, Nat.pow_zero, Nat.div_one] at h0
    have hst : foldHash H (node H hashLen data l q, 2 ^ (h :: hs).length + q) h =
        (node H hashLen data (l + 1) (q / 2), 2 ^ hs.length + q / 2) := by
      unfold foldHash
      simp only [List.length_cons]
      rw [parity_heap (by omega), half_heap, h0]
      congr 1
      unfold sibling
      by_cases hq : q % 2 = 0
      · rw [if_pos hq, if_pos hq, node, show 2 * (q / 2) = q by omega]
      · rw [if_neg hq, if_neg hq, node, show 2 * (q / 2) + 1 = q by omega, show 2 * (q / 2) = q - 1 by omega]
    rw [hst, ih (l + 1) (q / 2) ?_, List.length_cons, Nat.div_div_eq_div_mul, ← Nat.pow_succ']
    · congr 1; omega
    · intro k hklt
      have := hk (k + 1) (by simpa using hklt)
      rw [List.getElem?_cons_succ] at this
      rw [this, Nat.div_div_eq_div_mul, ← Nat.pow_succ']
      congr 2; omega

theorem node_length {H : List Byte → List Byte} {hashLen : Nat} (hH : ∀ s, (H s).length = hashLen)
    (data : List (List Byte)) (l p : Nat) : (node H hashLen data l p).length = hashLen := by
  cases l with
  | zero =>
    unfold node leafAt
    split
    · exact hH _
    · simp
  | succ l => exact hH _

/-- A path of hashes that ends in a node of the tree started in a node of the tree, unless it shows a collision. -/
theorem sound_path (H : List Byte → List Byte) (hashLen : Nat) (hH : ∀ s, (H s).length = hashLen)
    (data : List (List Byte)) :
    ∀ (hs : List (List Byte)) (l : Nat) (x : List Byte) (pos : Nat),
      l + hs.length = depth data → (∀ h ∈ hs, h.length = hashLen) → x.length = hashLen →
      (∀ a ∈ pathInputs H hs x pos, ∀ b, TreeInput H hashLen data b → H a = H b → a = b) →
      (hs.foldl (foldHash H) (x, pos)).1 = node H hashLen data (depth data) 0 →
      x = node H hashLen data l (pos % 2 ^ hs.length) := by
  intro hs
  induction hs with
  | nil =>
    intro l x pos hl _ _ _ hfin
    simp only [List.length_nil, Nat.add_zero] at hl
    simp only [List.foldl_nil] at hfin
    rw [hl, hfin]
    simp [Nat.mod_one]
  | cons h hs ih =>
    intro l x pos hl hlen hx hinj hfin
    simp only [List.length_cons] at hl
    rw [List.foldl_cons] at hfin
    simp only [pathInputs, List.mem_cons, forall_eq_or_imp] at hinj
    obtain ⟨hi0, hirest⟩ := hinj
    have hf : foldHash H (x, pos) h = (H (if pos % 2 = 0 then x ++ h else h ++ x), pos / 2) := by
      unfold foldHash; simp only; split <;> rfl
    rw [hf] at hfin
    have hprev := ih (l + 1) _ (pos / 2) (by omega) (fun h' hm => hlen h' (List.mem_cons_of_mem _ hm)) (hH _) hirest hfin
    generalize hp : pos / 2 % 2 ^ hs.length = p at hprev
    have hpos : pos % 2 ^ (h :: hs).length = 2 * p + pos % 2 := by
      rw [List.length_cons, Nat.pow_succ', Nat.mod_mul, ← hp]
      omega
    have hplt : p < 2 ^ (depth data - (l + 1)) := by
      rw [← hp, show depth data - (l + 1) = hs.length by omega]
      exact Nat.mod_lt _ (Nat.pow_pos (by omega))
    rw [node] at hprev
    have heq := hi0 _ (TreeInput.inner l p (by omega) hplt) hprev
    have hhl := hlen h (by simp)
    rw [hpos]
    by_cases hpar : pos % 2 = 0
    · rw [if_pos hpar] at heq
      rw [hpar, Nat.add_zero]
      exact (List.append_inj heq (by rw [hx, node_length hH])).1
    · rw [if_neg hpar] at heq
      rw [show pos % 2 = 1 by omega]
      exact (List.append_inj heq (by rw [hhl, node_length hH])).2

end Verif.Merkle
