import Verif.Lemmas.Data
import Mathlib.Data.List.Sort
import Mathlib.Data.List.NodupEquivFin

/-! # Which requests for a number of chunks are served by the first chunks (C58)

`C58_names_sorted_partial` is about the first thousand chunks. Here the number of chunks is unbounded: a server asked for at
most a hundred and one files loads the first chunks however many there are, and for every larger number there is a directory
of chunks from which it loads a later chunk instead of one of the first. -/

namespace Verif.Cmd
open Res Verif.Data

/-- The directory of `count` chunks listed in the order of the names, as the operating system lists it. -/
structure Listing (sorted : List (List Char)) (count : Nat) : Prop where
  files : sorted.Perm ((List.range count).map chunkName)
  ordered : sorted.Pairwise (· < ·)

theorem toDigits_step {n : Nat} (h : 10 ≤ n) :
    Nat.toDigits 10 n = Nat.toDigits 10 (n / 10) ++ [Nat.digitChar (n % 10)] := by
  have h1 := Nat.toDigits_append_toDigits (b := 10) (n := n / 10) (d := n % 10) (by omega) (by omega) (by omega)
  rw [Nat.toDigits_of_lt_base (b := 10) (n := n % 10) (by omega)] at h1
  rw [h1]
  congr 1
  omega

/-- The numeral of a number from a thousand on begins with four digits, the first of them not zero. -/
theorem toDigits_four (n : Nat) (h : 1000 ≤ n) : ∃ a b c d rest, 1 ≤ a ∧ a < 10 ∧ b < 10 ∧ c < 10 ∧ d < 10 ∧
    Nat.toDigits 10 n = digit a :: digit b :: digit c :: digit d :: rest := by
  induction n using Nat.strongRecOn with
  | _ n ih =>
    rcases Nat.lt_or_ge n 10000 with hn | hn
    · refine ⟨n / 1000, n / 100 % 10, n / 10 % 10, n % 10, [], by omega, by omega, by omega, by omega, by omega, ?_⟩
      rw [toDigits_step (by omega), toDigits_step (by omega), toDigits_step (by omega),
        Nat.toDigits_of_lt_base (by omega), digit_eq (by omega), digit_eq (by omega), digit_eq (by omega),
        digit_eq (by omega)]
      have h1 : n / 10 / 10 / 10 = n / 1000 := by omega
      have h2 : n / 10 / 10 % 10 = n / 100 % 10 := by omega
      rw [h1, h2]
      rfl
    · obtain ⟨a, b, c, d, rest, h1, h2, h3, h4, h5, h6⟩ := ih (n / 10) (by omega) (by omega)
      refine ⟨a, b, c, d, rest ++ [Nat.digitChar (n % 10)], h1, h2, h3, h4, h5, ?_⟩
      rw [toDigits_step (by omega), h6]
      rfl

theorem toDigits_pow (m : Nat) : Nat.toDigits 10 (10 ^ m) = '1' :: List.replicate m '0' := by
  induction m with
  | zero => rfl
  | succ m ih =>
    have hp : 1 ≤ 10 ^ m := Nat.one_le_pow _ _ (by omega)
    rw [toDigits_step (by rw [Nat.pow_succ]; omega)]
    have h1 : 10 ^ (m + 1) / 10 = 10 ^ m := by rw [Nat.pow_succ]; omega
    have h2 : 10 ^ (m + 1) % 10 = 0 := by rw [Nat.pow_succ]; omega
    rw [h1, h2, ih, List.replicate_succ']
    rfl

/-- Any of the first hundred and one chunks is listed before every later one. -/
theorem early_lt {i j : Nat} (hi : i ≤ 100) (hij : i < j) : chunkName i < chunkName j := by
  rcases Nat.lt_or_ge j 1000 with hj | hj
  · exact C58_names_sorted_partial i j hij hj
  obtain ⟨a, b, c, d, rest, h1, h2, h3, h4, h5, h6⟩ := toDigits_four j hj
  unfold chunkName
  rw [if_pos (by omega), if_neg (by omega), h6]
  have l1 := digit_lt (a := i / 100) (b := a) (by omega) (by omega)
  have l2 := digit_lt (a := i / 10 % 10) (b := b) (by omega) (by omega)
  have l3 := digit_lt (a := i % 10) (b := c) (by omega) (by omega)
  have l4 : '.' < digit d := by interval_cases d <;> decide
  show 's' :: 'k' :: 's' :: '-' :: digit (i / 100) :: digit (i / 10 % 10) :: digit (i % 10) :: '.' :: "pgp".toList <
    's' :: 'k' :: 's' :: '-' :: digit a :: digit b :: digit c :: digit d :: (rest ++ ".pgp".toList)
  simp only [List.cons_lt_cons_iff]
  refine Or.inr ⟨trivial, Or.inr ⟨trivial, Or.inr ⟨trivial, Or.inr ⟨trivial, ?_⟩⟩⟩⟩
  rcases Nat.lt_or_ge (i / 100) a with ha | ha
  · exact Or.inl (l1.mpr ha)
  have ea : i / 100 = a := by omega
  refine Or.inr ⟨by rw [ea], ?_⟩
  rcases Nat.lt_or_ge (i / 10 % 10) b with hb | hb
  · exact Or.inl (l2.mpr hb)
  have eb : i / 10 % 10 = b := by omega
  refine Or.inr ⟨by rw [eb], ?_⟩
  rcases Nat.lt_or_ge (i % 10) c with hc | hc
  · exact Or.inl (l3.mpr hc)
  have ec : i % 10 = c := by omega
  exact Or.inr ⟨by rw [ec], Or.inl l4⟩

/-- The chunk whose number is a power of ten from a thousand on is listed before the hundred and second chunk. -/
theorem power_lt (m : Nat) : chunkName (10 ^ (m + 3)) < chunkName 101 := by
  have hp : 1 ≤ 10 ^ m := Nat.one_le_pow _ _ (by omega)
  unfold chunkName
  rw [if_neg (by rw [Nat.pow_add]; omega), toDigits_pow, if_pos (by omega)]
  show 's' :: 'k' :: 's' :: '-' :: '1' :: (List.replicate (m + 1 + 1 + 1) '0' ++ ".pgp".toList) <
    's' :: 'k' :: 's' :: '-' :: '1' :: '0' :: '1' :: ".pgp".toList
  rw [List.replicate_succ, List.replicate_succ]
  simp only [List.cons_append, List.cons_lt_cons_iff]
  refine Or.inr ⟨trivial, Or.inr ⟨trivial, Or.inr ⟨trivial, Or.inr ⟨trivial, Or.inr ⟨trivial, Or.inr ⟨trivial, ?_⟩⟩⟩⟩⟩⟩
  exact Or.inl (by decide)

theorem Listing.length {sorted : List (List Char)} {count : Nat} (h : Listing sorted count) : sorted.length = count := by
  simpa using h.files.length_eq

theorem Listing.mem {sorted : List (List Char)} {count : Nat} (h : Listing sorted count) {n : Nat} :
    chunkName n ∈ sorted ↔ n < count := by
  rw [h.files.mem_iff, List.mem_map]
  constructor
  · rintro ⟨m, hm, he⟩
    rw [← chunkName_inj he]
    exact List.mem_range.mp hm
  · intro hn
    exact ⟨n, List.mem_range.mpr hn, rfl⟩

/-- Every directory of chunks has such a listing. -/
theorem listing_exists (count : Nat) : ∃ sorted, Listing sorted count := by
  refine ⟨((List.range count).map chunkName).mergeSort (fun a b => decide (a ≤ b)), List.mergeSort_perm _ _, ?_⟩
  have h1 := List.pairwise_mergeSort (le := fun a b : List Char => decide (a ≤ b))
    (fun a b c hab hbc => by
      simp only [decide_eq_true_eq] at *
      exact List.le_trans hab hbc)
    (fun a b => by
      simp only [Bool.or_eq_true, decide_eq_true_eq]
      exact List.le_total a b) ((List.range count).map chunkName)
  have h2 : (((List.range count).map chunkName).mergeSort (fun a b => decide (a ≤ b))).Nodup := by
    rw [(List.mergeSort_perm _ _).nodup_iff]
    exact List.nodup_range.map (fun a b h => chunkName_inj h)
  refine (h1.and h2).imp ?_
  rintro a b ⟨hab, hne⟩
  simp only [decide_eq_true_eq] at hab
  by_contra h
  exact hne (List.le_antisymm hab (List.not_lt.mp h))

/-- C58: a server asked for at most a hundred and one files, or started on a directory of at most a thousand chunks, loads
exactly the chunks asked for, from the first on and in order. -/
theorem C58_first {sorted : List (List Char)} {count k : Nat} (hl : Listing sorted count) (hk : k ≤ count)
    (h : k ≤ 101 ∨ count ≤ 1000) : getSksFiles sorted k = ok ((List.range k).map chunkName) := by
  have hlt : ∀ i j, i < k → i < j → j < count → chunkName i < chunkName j := by
    intro i j hi hij hj
    rcases h with h | h
    · exact early_lt (by omega) hij
    · exact C58_names_sorted_partial i j hij (by omega)
  have hnd : sorted.Nodup := hl.ordered.imp (fun {a b} hab he => by subst he; exact List.lt_irrefl _ hab)
  have hfn : ((List.range k).map chunkName).Nodup := List.nodup_range.map (fun a b h => chunkName_inj h)
  have hperm : ((List.range k).map chunkName ++ sorted.filter (fun x => !decide (x ∈ (List.range k).map chunkName))).Perm
      sorted := by
    refine List.Perm.trans (List.Perm.append_right _ ?_)
      (List.filter_append_perm (fun x => decide (x ∈ (List.range k).map chunkName)) sorted)
    rw [List.perm_ext_iff_of_nodup hfn (hnd.filter _)]
    intro a
    rw [List.mem_filter, decide_eq_true_eq]
    refine ⟨fun ha => ⟨?_, ha⟩, fun ha => ha.2⟩
    obtain ⟨i, hi, rfl⟩ := List.mem_map.mp ha
    exact hl.mem.mpr (by have := List.mem_range.mp hi; omega)
  have hord : ((List.range k).map chunkName ++
      sorted.filter (fun x => !decide (x ∈ (List.range k).map chunkName))).Pairwise (· < ·) := by
    rw [List.pairwise_append]
    refine ⟨?_, hl.ordered.filter _, ?_⟩
    · rw [List.pairwise_map]
      refine List.Pairwise.imp_of_mem ?_ (List.pairwise_lt_range (n := k))
      intro i j hi hj hij
      have hi := List.mem_range.mp hi
      have hj := List.mem_range.mp hj
      exact hlt i j hi hij (by omega)
    · intro a ha b hb
      obtain ⟨i, hi, rfl⟩ := List.mem_map.mp ha
      have hi := List.mem_range.mp hi
      rw [List.mem_filter] at hb
      obtain ⟨j, hj, rfl⟩ := List.mem_map.mp (hl.files.mem_iff.mp hb.1)
      have hj := List.mem_range.mp hj
      have hnot : ¬ j < k := by
        intro hjk
        have := hb.2
        simp only [Bool.not_eq_true', decide_eq_false_iff_not] at this
        exact this (List.mem_map.mpr ⟨j, List.mem_range.mpr hjk, rfl⟩)
      exact hlt i j hi (by omega) hj
  have heq := List.Perm.eq_of_pairwise (le := (· < ·))
    (fun a b _ _ hab hba => absurd (List.lt_trans hab hba) (List.lt_irrefl _)) hord hl.ordered hperm
  have hlen := hl.length
  rw [(C58_files sorted k).1 ⟨by omega, by omega⟩, Int.toNat_natCast, ← heq, List.take_left' (by simp)]

/-- C58: for every number of files above a hundred and one there is a directory with at least that many chunks from which the
server loads a chunk that is not among the first so many, in place of one that is. -/
theorem C58_beyond {k : Nat} (hk : 101 < k) : ∃ count, k ≤ count ∧ (∃ sorted, Listing sorted count) ∧
    ∀ sorted, Listing sorted count → ∃ l, getSksFiles sorted k = ok l ∧ l.length = k ∧
      (∃ j, k ≤ j ∧ chunkName j ∈ l) ∧ ∃ i, i < k ∧ chunkName i ∉ l := by
  have hbig : k ≤ 10 ^ (k + 3) := by
    have h1 : k < 10 ^ k := Nat.lt_pow_self (by omega)
    have h2 : 10 ^ k ≤ 10 ^ (k + 3) := Nat.pow_le_pow_right (by omega) (by omega)
    omega
  refine ⟨10 ^ (k + 3) + 1, by omega, listing_exists _, ?_⟩
  intro sorted hl
  have hlen := hl.length
  have hnd : sorted.Nodup := hl.ordered.imp (fun {a b} hab he => by subst he; exact List.lt_irrefl _ hab)
  refine ⟨sorted.take k, ?_, by rw [List.length_take]; omega, ?_⟩
  · rw [(C58_files sorted k).1 ⟨by omega, by omega⟩, Int.toNat_natCast]
  have hdown : ∀ a b, a < b → a ∈ sorted → b ∈ sorted.take k → a ∈ sorted.take k := by
    intro a b hab ha hb
    by_contra hn
    rw [← List.take_append_drop k sorted, List.mem_append] at ha
    have ha := ha.resolve_left hn
    have ho := hl.ordered
    rw [← List.take_append_drop k sorted, List.pairwise_append] at ho
    exact List.lt_irrefl _ (List.lt_trans hab (ho.2.2 b hb a ha))
  have hfn : ((List.range k).map chunkName).Nodup := List.nodup_range.map (fun a b h => chunkName_inj h)
  have hnot : ¬ ∀ i, i < k → chunkName i ∈ sorted.take k := by
    intro hall
    have hin := hdown _ _ (power_lt k) (hl.mem.mpr (by omega)) (hall 101 hk)
    have hsub : (chunkName (10 ^ (k + 3)) :: (List.range k).map chunkName) ⊆ sorted.take k := by
      intro a ha
      rcases List.mem_cons.mp ha with rfl | ha
      · exact hin
      · obtain ⟨i, hi, rfl⟩ := List.mem_map.mp ha
        exact hall i (List.mem_range.mp hi)
    have hnd2 : (chunkName (10 ^ (k + 3)) :: (List.range k).map chunkName).Nodup := by
      refine List.nodup_cons.mpr ⟨?_, hfn⟩
      intro hm
      obtain ⟨i, hi, he⟩ := List.mem_map.mp hm
      have := List.mem_range.mp hi
      have := chunkName_inj he
      omega
    have := (hnd2.subperm hsub).length_le
    simp only [List.length_cons, List.length_map, List.length_range, List.length_take] at this
    omega
  constructor
  · by_contra hno
    apply hnot
    have hsub : sorted.take k ⊆ (List.range k).map chunkName := by
      intro a ha
      obtain ⟨j, hj, rfl⟩ := List.mem_map.mp (hl.files.mem_iff.mp (List.mem_of_mem_take ha))
      refine List.mem_map.mpr ⟨j, List.mem_range.mpr ?_, rfl⟩
      by_contra hjk
      exact hno ⟨j, by omega, ha⟩
    have hp := ((hnd.sublist (List.take_sublist k sorted)).subperm hsub).perm_of_length_le
      (by simp only [List.length_map, List.length_range, List.length_take]; omega)
    intro i hi
    exact hp.mem_iff.mpr (List.mem_map.mpr ⟨i, List.mem_range.mpr hi, rfl⟩)
  · by_contra hno
    apply hnot
    intro i hi
    by_contra hni
    exact hno ⟨i, hi, hni⟩

/-- C58: a number of files is served by the first chunks in every directory that has so many exactly when it is at most a
hundred and one. -/
theorem C58_exact (k : Nat) : (∀ sorted count, Listing sorted count → k ≤ count →
    getSksFiles sorted k = ok ((List.range k).map chunkName)) ↔ k ≤ 101 := by
  constructor
  · intro h
    by_contra hk
    obtain ⟨count, h1, ⟨sorted, h2⟩, h3⟩ := C58_beyond (k := k) (by omega)
    obtain ⟨l, h4, -, -, i, h5, h6⟩ := h3 sorted h2
    rw [h sorted count h2 h1] at h4
    injection h4 with h4
    exact h6 (h4 ▸ List.mem_map.mpr ⟨i, List.mem_range.mpr h5, rfl⟩)
  · intro hk sorted count hl hc
    exact C58_first hl hc (Or.inl hk)

/-- The listing of three chunks meets the hypotheses of `C58_first`, which then gives the first two. -/
example : Listing [chunkName 0, chunkName 1, chunkName 2] 3 ∧
    getSksFiles [chunkName 0, chunkName 1, chunkName 2] 2 = ok [chunkName 0, chunkName 1] := by
  have h : Listing [chunkName 0, chunkName 1, chunkName 2] 3 := ⟨List.Perm.refl _, by decide⟩
  exact ⟨h, C58_first (k := 2) h (by omega) (Or.inl (by omega))⟩

/-- A directory of twelve hundred chunks, of which a hundred and one are asked for. -/
example : ∃ sorted, Listing sorted 1200 ∧ getSksFiles sorted 101 = ok ((List.range 101).map chunkName) := by
  obtain ⟨sorted, h⟩ := listing_exists 1200
  exact ⟨sorted, h, C58_first (k := 101) h (by omega) (Or.inl (by omega))⟩

/-- A hundred and two files meet the hypothesis of `C58_beyond`. -/
example : ¬ ∀ sorted count, Listing sorted count → 102 ≤ count →
    getSksFiles sorted (102 : Nat) = ok ((List.range 102).map chunkName) := by
  intro h
  exact absurd ((C58_exact 102).mp h) (by omega)

end Verif.Cmd
