import Verif.Spec.Panic
import Verif.Lemmas.PredicateRun
import Verif.Lemmas.MerklePir
import Verif.Props.PredicateRobust

/-! # Lemmas about the answers that make a client panic -/

namespace Verif.Panic
open Res Verif.Field Verif.Field.Spec Verif.Predicate Verif.Panic.Spec

/-- A loop that only checks crashes exactly when a check does after all the earlier ones have passed. -/
theorem check_loop_crash (n : Nat) (body : Nat → Unit → Res Unit) :
    (forLoop n body ()).isCrash ↔ ∃ i, i < n ∧ (∀ j, j < i → body j () = ok ()) ∧ (body i ()).isCrash := by
  induction n with
  | zero => simp
  | succ n ih =>
    rw [forLoop_succ, isCrash_bind, ih]
    constructor
    · rintro (⟨i, hi, h⟩ | ⟨a, ha, h⟩)
      · exact ⟨i, by omega, h⟩
      · exact ⟨n, by omega, check_loop_ok n body () ha, h⟩
    · rintro ⟨i, hi, h, hc⟩
      rcases Nat.lt_succ_iff_lt_or_eq.mp hi with h' | rfl
      · exact Or.inl ⟨i, h', h, hc⟩
      · exact Or.inr ⟨(), check_loop i body h, hc⟩

theorem check_loop_iff (n : Nat) (body : Nat → Unit → Res Unit) :
    forLoop n body () = ok () ↔ ∀ i, i < n → body i () = ok () :=
  ⟨check_loop_ok n body (), check_loop n body⟩

theorem tag_toNat (d a : U32) : (tagOf d a).toNat = d.toNat * a.toNat % p := by
  unfold tagOf
  have hmul : d.toNat * a.toNat < 2 ^ 64 := by
    calc d.toNat * a.toNat < 2 ^ 32 * 2 ^ 32 := Nat.mul_lt_mul'' d.isLt a.isLt
      _ = 2 ^ 64 := by norm_num
  have e1 : (BitVec.setWidth 64 d).toNat = d.toNat := by
    rw [BitVec.toNat_setWidth]; omega
  have e2 : (BitVec.setWidth 64 a).toNat = a.toNat := by
    rw [BitVec.toNat_setWidth]; omega
  have e3 : (BitVec.setWidth 64 modP).toNat = 2147483647 := by
    rw [BitVec.toNat_setWidth, modP_toNat]
  rw [BitVec.toNat_setWidth, BitVec.toNat_umod, BitVec.toNat_mul, e1, e2, e3, p_val, Nat.mod_eq_of_lt hmul]
  have : d.toNat * a.toNat % 2147483647 < 2147483647 := Nat.mod_lt _ (by norm_num)
  omega

theorem sum_toNat (x y : U32) : ((x + y) % modP).toNat = (x.toNat + y.toNat) % 2 ^ 32 % p := by
  rw [BitVec.toNat_umod, BitVec.toNat_add, modP_toNat, p_val]

/-- The comparison of a tag, in terms of numbers. -/
theorem tag_fits (alphas a0 a1 : List U32) (off i : Nat) :
    tagOf ((a0.getD off 0 + a1.getD off 0) % modP) (alphas.getD i 0) =
      (a0.getD (off + i + 1) 0 + a1.getD (off + i + 1) 0) % modP ↔ TagFits alphas a0 a1 off i := by
  rw [← BitVec.toNat_inj, tag_toNat, sum_toNat, sum_toNat]
  exact eq_comm

theorem idx_crash {α : Type _} {l : List α} {i : Nat} : (idx l i).isCrash ↔ l.length ≤ i := by
  constructor
  · intro h
    by_contra hc
    rw [idx_of_lt (by omega)] at h
    simp at h
  · intro h
    rw [idx_of_ge h]
    simp

theorem slice_crash {α : Type _} {l : List α} {i j : Nat} (h : i ≤ j) : (slice l i j).isCrash ↔ l.length < j := by
  constructor
  · intro hc
    by_contra hn
    rw [slice_of_le h (by omega)] at hc
    simp at hc
  · intro hl
    unfold slice
    rw [if_neg (by omega)]
    simp

theorem words_eq (b : List Byte) : Utils.byteSliceToUint32Slice b = ok (wordsOf b) := by
  rw [Utils.byteSliceToUint32Slice_eq]
  unfold wordsOf
  congr 1
  apply List.map_congr_left
  intro i _
  unfold Utils.word
  rw [Nat.mul_comm]

theorem decoded (answers : List (List Byte)) : answers.mapM Utils.byteSliceToUint32Slice = ok (answers.map wordsOf) := by
  induction answers with
  | nil => rfl
  | cons a l ih => rw [List.mapM_cons, words_eq, ih]; rfl

/-! ### Counting -/

/-- One comparison of a counting query. -/
def countStep (alphas a0 a1 : List U32) (i : Nat) (_ : Unit) : Res Unit := do
  let alpha ← idx alphas i
  let tag := tagOf ((a0.getD 0 0 + a1.getD 0 0) % modP) alpha
  let x0 ← idx a0 (i + 1)
  let x1 ← idx a1 (i + 1)
  if tag ≠ (x0 + x1) % modP then err "REJECT" else ok ()

theorem countStep_in {alphas a0 a1 : List U32} {i : Nat} (h : i < alphas.length) (h0 : i + 1 < a0.length)
    (h1 : i + 1 < a1.length) : (TagFits alphas a0 a1 0 i → countStep alphas a0 a1 i () = ok ()) ∧
      (¬ TagFits alphas a0 a1 0 i → countStep alphas a0 a1 i () = err "REJECT") := by
  unfold countStep
  rw [idx_getD 0 h, idx_getD 0 h0, idx_getD 0 h1]
  simp only [ok_bind]
  have := tag_fits alphas a0 a1 0 i
  rw [Nat.zero_add] at this
  refine ⟨fun hf => ?_, fun hf => ?_⟩
  · rw [if_neg (by rw [not_not]; exact this.mpr hf)]
  · rw [if_pos (fun hc => hf (this.mp hc))]

theorem countStep_out {alphas a0 a1 : List U32} {i : Nat} (h : i < alphas.length)
    (h01 : a0.length ≤ i + 1 ∨ a1.length ≤ i + 1) : (countStep alphas a0 a1 i ()).isCrash := by
  unfold countStep
  rw [idx_getD 0 h]
  simp only [ok_bind]
  rw [isCrash_bind]
  by_cases h0 : a0.length ≤ i + 1
  · exact Or.inl (idx_crash.mpr h0)
  · right
    refine ⟨_, idx_of_lt (by omega), ?_⟩
    rw [isCrash_bind]
    exact Or.inl (idx_crash.mpr (by omega))

theorem reconstruct_count_steps {n : Nat} {st : State} {a0 a1 : List U32} {rest : List (List U32)} (h0 : 0 < a0.length)
    (h1 : 0 < a1.length) (hl : a0.length ≠ 2 * n) :
    reconstruct n st (a0 :: a1 :: rest) =
      (forLoop (n - 1) (countStep st.alphas a0 a1) () >>= fun _ => ok ((a0.getD 0 0 + a1.getD 0 0) % modP)) := by
  unfold reconstruct
  rw [idx_cons_zero, idx_cons_succ, idx_cons_zero]
  simp only [ok_bind]
  rw [if_neg hl, idx_getD 0 h0, idx_getD 0 h1]
  rfl

theorem count_panics {n : Nat} (hn : 0 < n) {st : State} (hst : n ≤ st.alphas.length + 1) {a0 a1 : List U32}
    {rest : List (List U32)} (hl : a0.length ≠ 2 * n) :
    (reconstruct n st (a0 :: a1 :: rest)).isCrash ↔ CountPanics n st.alphas a0 a1 := by
  by_cases h0 : a0.length = 0
  · have : a0 = [] := List.length_eq_zero_iff.mp h0
    subst this
    simp only [CountPanics, true_or, iff_true]
    unfold reconstruct
    rw [idx_cons_zero]
    simp only [ok_bind]
    rw [if_neg hl]
    simp [idx]
  by_cases h1 : a1.length = 0
  · have : a1 = [] := List.length_eq_zero_iff.mp h1
    subst this
    simp only [CountPanics, true_or, or_true, iff_true]
    unfold reconstruct
    rw [idx_cons_zero, idx_cons_succ, idx_cons_zero]
    simp only [ok_bind]
    rw [if_neg hl, idx_getD 0 (by omega)]
    simp [idx]
  rw [reconstruct_count_steps (by omega) (by omega) hl, isCrash_bind]
  have hne0 : a0 ≠ [] := fun h => h0 (by rw [h]; rfl)
  have hne1 : a1 ≠ [] := fun h => h1 (by rw [h]; rfl)
  simp only [CountPanics, hne0, hne1, false_or, isCrash_ok, and_false, exists_const, or_false]
  rw [check_loop_crash]
  constructor
  · rintro ⟨i, hi, hpre, hc⟩
    have hout : min a0.length a1.length ≤ i + 1 := by
      by_contra hlt
      obtain ⟨e1, e2⟩ := countStep_in (alphas := st.alphas) (a0 := a0) (a1 := a1) (i := i) (by omega) (by omega) (by omega)
      by_cases hf : TagFits st.alphas a0 a1 0 i
      · rw [e1 hf] at hc; simp at hc
      · rw [e2 hf] at hc; simp at hc
    refine ⟨by omega, fun j hj => ?_⟩
    obtain ⟨-, e2⟩ := countStep_in (alphas := st.alphas) (a0 := a0) (a1 := a1) (i := j) (by omega) (by omega) (by omega)
    by_contra hf
    have := hpre j (by omega)
    rw [e2 hf] at this
    simp at this
  · rintro ⟨hm, hall⟩
    refine ⟨min a0.length a1.length - 1, by omega, fun j hj => ?_, countStep_out (by omega) (by omega)⟩
    exact (countStep_in (by omega) (by omega) (by omega)).1 (hall j (by omega))

theorem count_returns {n : Nat} (hn : 0 < n) {st : State} (hst : n ≤ st.alphas.length + 1) {a0 a1 : List U32}
    {rest : List (List U32)} (hl : a0.length ≠ 2 * n) (r : U32) :
    reconstruct n st (a0 :: a1 :: rest) = ok r ↔ n ≤ a0.length ∧ n ≤ a1.length ∧
      (∀ i, i + 1 < n → TagFits st.alphas a0 a1 0 i) ∧ r.toNat = joint a0 a1 0 := by
  have hsum : ∀ r : U32, (a0.getD 0 0 + a1.getD 0 0) % modP = r ↔ r.toNat = joint a0 a1 0 := by
    intro r
    rw [← BitVec.toNat_inj, sum_toNat]
    exact eq_comm
  constructor
  · intro h
    have hnc : ¬ CountPanics n st.alphas a0 a1 := by
      rw [← count_panics hn hst hl (rest := rest), h]; simp
    have hne : a0 ≠ [] ∧ a1 ≠ [] := by
      unfold CountPanics at hnc; tauto
    have h0 := List.length_pos_iff.mpr hne.1
    have h1 := List.length_pos_iff.mpr hne.2
    rw [reconstruct_count_steps h0 h1 hl, bind_eq_ok] at h
    obtain ⟨_, hloop, hr⟩ := h
    have hall := check_loop_ok _ _ _ hloop
    have hlen : ∀ i, i + 1 < n → i + 1 < a0.length ∧ i + 1 < a1.length := by
      intro i hi
      by_contra hc
      have := countStep_out (alphas := st.alphas) (a0 := a0) (a1 := a1) (i := i) (by omega) (by omega)
      rw [hall i (by omega)] at this
      simp at this
    have hn1 : n ≤ a0.length ∧ n ≤ a1.length := by
      by_cases h : n = 1
      · omega
      · have := hlen (n - 2) (by omega); omega
    refine ⟨hn1.1, hn1.2, fun i hi => ?_, (hsum r).mp (ok.inj hr)⟩
    by_contra hf
    have := (countStep_in (alphas := st.alphas) (a0 := a0) (a1 := a1) (i := i) (by omega) (by omega) (by omega)).2 hf
    rw [hall i (by omega)] at this
    simp at this
  · rintro ⟨h0, h1, hall, hr⟩
    rw [reconstruct_count_steps (by omega) (by omega) hl, check_loop (n - 1) _ (fun i hi =>
      (countStep_in (by omega) (by omega) (by omega)).1 (hall i (by omega))), ok_bind, (hsum r).mpr hr]

/-! ### Averages -/

/-- One comparison of an average query. -/
def avgStep (alphas c0 c1 s0 s1 : List U32) (i : Nat) (_ : Unit) : Res Unit := do
  let alpha ← idx alphas i
  let tagCount := tagOf ((c0.getD 0 0 + c1.getD 0 0) % modP) alpha
  let x0 ← idx c0 (i + 1)
  let x1 ← idx c1 (i + 1)
  if tagCount ≠ (x0 + x1) % modP then err "REJECT count"
  else do
    let tagSum := tagOf ((s0.getD 0 0 + s1.getD 0 0) % modP) alpha
    let y0 ← idx s0 (i + 1)
    let y1 ← idx s1 (i + 1)
    if tagSum ≠ (y0 + y1) % modP then err "REJECT sum" else ok ()

theorem fits_left {alphas a0 a1 : List U32} {n i : Nat} (hi : i + 1 < n) :
    tagOf (((a0.take n).getD 0 0 + (a1.take n).getD 0 0) % modP) (alphas.getD i 0) =
      ((a0.take n).getD (i + 1) 0 + (a1.take n).getD (i + 1) 0) % modP ↔ TagFits alphas a0 a1 0 i := by
  have e : ∀ (l : List U32) (k : Nat), k < n → (l.take n).getD k 0 = l.getD k 0 := by
    intro l k hk
    simp [List.getD_eq_getElem?_getD, hk]
  rw [e _ _ (by omega), e _ _ (by omega), e _ _ hi, e _ _ hi, ← tag_fits, Nat.zero_add]

theorem fits_right {alphas a0 a1 : List U32} {n i : Nat} :
    tagOf (((a0.drop n).getD 0 0 + (a1.drop n).getD 0 0) % modP) (alphas.getD i 0) =
      ((a0.drop n).getD (i + 1) 0 + (a1.drop n).getD (i + 1) 0) % modP ↔ TagFits alphas a0 a1 n i := by
  have e : ∀ (l : List U32) (k : Nat), (l.drop n).getD k 0 = l.getD (n + k) 0 := by
    intro l k
    simp [List.getD_eq_getElem?_getD, List.getElem?_drop]
  rw [e, e, e, e, ← tag_fits, Nat.add_zero, Nat.add_assoc]

theorem reconstruct_avg_steps {n : Nat} (hn : 0 < n) {st : State} {a0 a1 : List U32} {rest : List (List U32)}
    (hl : a0.length = 2 * n) (h1 : n < a1.length) :
    reconstruct n st (a0 :: a1 :: rest) =
      (forLoop (n - 1) (avgStep st.alphas (a0.take n) (a1.take n) (a0.drop n) (a1.drop n)) () >>= fun _ =>
        divU32 ((a0.getD n 0 + a1.getD n 0) % modP) ((a0.getD 0 0 + a1.getD 0 0) % modP)) := by
  have e1 : ∀ l : List U32, n ≤ l.length → slice l 0 n = ok (l.take n) := by
    intro l h
    rw [slice_of_le (by omega) h]; simp
  have e2 : ∀ l : List U32, n ≤ l.length → slice l n l.length = ok (l.drop n) := by
    intro l h
    rw [slice_of_le h le_rfl, List.take_of_length_le (by simp)]
  have e3 : ∀ l : List U32, n < l.length → (l.drop n).getD 0 0 = l.getD n 0 := by
    intro l h
    simp [List.getD_eq_getElem?_getD, List.getElem?_drop]
  have e4 : ∀ l : List U32, (l.take n).getD 0 0 = l.getD 0 0 := by
    intro l
    simp [List.getD_eq_getElem?_getD, hn]
  unfold reconstruct
  rw [idx_cons_zero, idx_cons_succ, idx_cons_zero]
  simp only [ok_bind]
  rw [if_pos hl, e1 a0 (by omega), e1 a1 (by omega), e2 a0 (by omega), e2 a1 (by omega)]
  simp only [ok_bind]
  rw [idx_getD 0 (show 0 < (a0.take n).length by simp; omega), idx_getD 0 (show 0 < (a1.take n).length by simp; omega),
    idx_getD 0 (show 0 < (a0.drop n).length by simp; omega), idx_getD 0 (show 0 < (a1.drop n).length by simp; omega)]
  simp only [ok_bind]
  rw [← e3 a0 (by omega), ← e3 a1 h1, ← e4 a0, ← e4 a1]
  rfl

/-- How a comparison of an average query ends, where the words for the count are there. -/
theorem avgStep_eq {alphas a0 a1 : List U32} {n i : Nat} (h : i < alphas.length) (hi : i + 1 < n) (hl : a0.length = 2 * n)
    (h1 : n < a1.length) :
    (¬ TagFits alphas a0 a1 0 i →
      avgStep alphas (a0.take n) (a1.take n) (a0.drop n) (a1.drop n) i () = err "REJECT count") ∧
    (TagFits alphas a0 a1 0 i → a1.length ≤ n + i + 1 →
      (avgStep alphas (a0.take n) (a1.take n) (a0.drop n) (a1.drop n) i ()).isCrash) ∧
    (TagFits alphas a0 a1 0 i → n + i + 1 < a1.length → ¬ TagFits alphas a0 a1 n i →
      avgStep alphas (a0.take n) (a1.take n) (a0.drop n) (a1.drop n) i () = err "REJECT sum") ∧
    (TagFits alphas a0 a1 0 i → n + i + 1 < a1.length → TagFits alphas a0 a1 n i →
      avgStep alphas (a0.take n) (a1.take n) (a0.drop n) (a1.drop n) i () = ok ()) := by
  unfold avgStep
  rw [idx_getD 0 h, idx_getD 0 (show i + 1 < (a0.take n).length by simp; omega),
    idx_getD 0 (show i + 1 < (a1.take n).length by simp; omega),
    idx_getD 0 (show i + 1 < (a0.drop n).length by simp; omega)]
  simp only [ok_bind]
  refine ⟨fun hf => ?_, fun hf hs => ?_, fun hf hs hg => ?_, fun hf hs hg => ?_⟩
  · rw [if_pos (fun hc => hf ((fits_left hi).mp hc))]
  · rw [if_neg (by rw [not_not]; exact (fits_left hi).mpr hf), idx_of_ge (by simp; omega)]
    simp
  · rw [if_neg (by rw [not_not]; exact (fits_left hi).mpr hf), idx_getD 0 (show i + 1 < (a1.drop n).length by simp; omega),
      ok_bind, if_pos (fun hc => hg (fits_right.mp hc))]
  · rw [if_neg (by rw [not_not]; exact (fits_left hi).mpr hf), idx_getD 0 (show i + 1 < (a1.drop n).length by simp; omega),
      ok_bind, if_neg (by rw [not_not]; exact fits_right.mpr hg)]

theorem div_crash {x y : U32} : (divU32 x y).isCrash ↔ y.toNat = 0 := by
  unfold divU32
  split
  · rename_i h; subst h; simp
  · rename_i h
    simp only [isCrash_ok, false_iff]
    exact fun h0 => h (BitVec.eq_of_toNat_eq (by rw [h0]; rfl))

theorem avg_short {n : Nat} (hn : 0 < n) {st : State} {a0 a1 : List U32} {rest : List (List U32)} (hl : a0.length = 2 * n)
    (h1 : a1.length ≤ n) : (reconstruct n st (a0 :: a1 :: rest)).isCrash := by
  unfold reconstruct
  rw [idx_cons_zero, idx_cons_succ, idx_cons_zero]
  simp only [ok_bind]
  rw [if_pos hl, slice_of_le (l := a0) (by omega) (by omega)]
  simp only [ok_bind]
  rw [isCrash_bind]
  by_cases h : a1.length < n
  · exact Or.inl ((slice_crash (by omega)).mpr h)
  · right
    have : a1.length = n := by omega
    refine ⟨_, slice_of_le (by omega) (by omega), ?_⟩
    rw [slice_of_le (l := a0) (by omega) (by omega), slice_of_le (l := a1) (by omega) (by omega)]
    simp only [ok_bind]
    rw [idx_of_lt (by simp; omega), idx_of_lt (by simp; omega), idx_of_lt (by simp; omega), idx_of_ge (by simp; omega)]
    simp

theorem avg_panics {n : Nat} (hn : 0 < n) {st : State} (hst : n ≤ st.alphas.length + 1) {a0 a1 : List U32}
    {rest : List (List U32)} (hl : a0.length = 2 * n) :
    (reconstruct n st (a0 :: a1 :: rest)).isCrash ↔ AveragePanics n st.alphas a0 a1 := by
  by_cases h1 : a1.length ≤ n
  · simp only [AveragePanics, h1, true_or, iff_true]
    exact avg_short hn hl h1
  push Not at h1
  have step := fun {i : Nat} (hi : i + 1 < n) =>
    avgStep_eq (alphas := st.alphas) (a0 := a0) (a1 := a1) (n := n) (i := i) (by omega) hi hl h1
  have stepOk : ∀ {i : Nat}, i + 1 < n →
      avgStep st.alphas (a0.take n) (a1.take n) (a0.drop n) (a1.drop n) i () = ok () →
      TagFits st.alphas a0 a1 0 i ∧ n + i + 1 < a1.length ∧ TagFits st.alphas a0 a1 n i := by
    intro i hi h
    obtain ⟨e1, e2, e3, -⟩ := step hi
    have f1 : TagFits st.alphas a0 a1 0 i := by
      by_contra hc
      rw [e1 hc] at h; simp at h
    have f2 : n + i + 1 < a1.length := by
      by_contra hc
      have := e2 f1 (by omega)
      rw [h] at this; simp at this
    refine ⟨f1, f2, ?_⟩
    by_contra hc
    rw [e3 f1 f2 hc] at h; simp at h
  rw [reconstruct_avg_steps hn hl h1, isCrash_bind]
  have hdiv : (divU32 ((a0.getD n 0 + a1.getD n 0) % modP) ((a0.getD 0 0 + a1.getD 0 0) % modP)).isCrash ↔
      joint a0 a1 0 = 0 := by
    rw [div_crash, sum_toNat]; rfl
  constructor
  · rintro (hc | ⟨_, hok, hc⟩)
    · obtain ⟨i, hi, hpre, hc⟩ := (check_loop_crash _ _).mp hc
      obtain ⟨e1, e2, e3, e4⟩ := step (i := i) (by omega)
      have f1 : TagFits st.alphas a0 a1 0 i := by
        by_contra hf
        rw [e1 hf] at hc; simp at hc
      have f2 : a1.length ≤ n + i + 1 := by
        by_contra hf
        by_cases hg : TagFits st.alphas a0 a1 n i
        · rw [e4 f1 (by omega) hg] at hc; simp at hc
        · rw [e3 f1 (by omega) hg] at hc; simp at hc
      have f3 : n + i < a1.length := by
        by_contra hf
        have := (stepOk (i := a1.length - n - 1) (by omega) (hpre _ (by omega))).2.1
        omega
      right; left
      refine ⟨by omega, fun j hj => ?_, fun j hj => ?_⟩
      · exact (stepOk (by omega) (hpre j (by omega))).2.2
      · by_cases h : j = i
        · rw [h]; exact f1
        · exact (stepOk (by omega) (hpre j (by omega))).1
    · have hall := check_loop_ok _ _ _ hok
      right; right
      refine ⟨?_, fun i hi => ?_, hdiv.mp hc⟩
      · by_cases h : n = 1
        · omega
        · have := (stepOk (i := n - 2) (by omega) (hall _ (by omega))).2.1
          omega
      · have := stepOk hi (hall i (by omega))
        exact ⟨this.1, this.2.2⟩
  · rintro (h | ⟨h2, hs, hc⟩ | ⟨h2, hall, h0⟩)
    · omega
    · left
      rw [check_loop_crash]
      refine ⟨a1.length - n - 1, by omega, fun j hj => ?_, ?_⟩
      · exact (step (i := j) (by omega)).2.2.2 (hc j (by omega)) (by omega) (hs j (by omega))
      · exact (step (i := a1.length - n - 1) (by omega)).2.1 (hc _ (by omega)) (by omega)
    · right
      exact ⟨(), check_loop _ _ (fun i hi => (step (by omega)).2.2.2 (hall i (by omega)).1 (by omega) (hall i (by omega)).2),
        hdiv.mpr h0⟩

theorem avg_returns {n : Nat} (hn : 0 < n) {st : State} (hst : n ≤ st.alphas.length + 1) {a0 a1 : List U32}
    {rest : List (List U32)} (hl : a0.length = 2 * n) (r : U32) :
    reconstruct n st (a0 :: a1 :: rest) = ok r ↔ 2 * n ≤ a1.length ∧
      (∀ i, i + 1 < n → TagFits st.alphas a0 a1 0 i ∧ TagFits st.alphas a0 a1 n i) ∧ joint a0 a1 0 ≠ 0 ∧
      r.toNat = joint a0 a1 n / joint a0 a1 0 := by
  have hdiv : divU32 ((a0.getD n 0 + a1.getD n 0) % modP) ((a0.getD 0 0 + a1.getD 0 0) % modP) = ok r ↔
      joint a0 a1 0 ≠ 0 ∧ r.toNat = joint a0 a1 n / joint a0 a1 0 := by
    have e0 : joint a0 a1 0 = ((a0.getD 0 0 + a1.getD 0 0) % modP).toNat := (sum_toNat _ _).symm
    have en : joint a0 a1 n = ((a0.getD n 0 + a1.getD n 0) % modP).toNat := (sum_toNat _ _).symm
    rw [e0, en, ← BitVec.toNat_udiv, BitVec.toNat_inj]
    unfold divU32
    split
    · rename_i h; rw [h]; simp
    · rename_i h
      have : ((a0.getD 0 0 + a1.getD 0 0) % modP).toNat ≠ 0 := fun hc => h (BitVec.eq_of_toNat_eq (by rw [hc]; rfl))
      simp only [ok.injEq, ne_eq, this, not_false_eq_true, true_and]
      exact eq_comm
  by_cases h1 : a1.length ≤ n
  · have := avg_short (st := st) (rest := rest) hn hl h1
    constructor
    · intro h; rw [h] at this; simp at this
    · rintro ⟨h2, -⟩; omega
  push Not at h1
  have step := fun {i : Nat} (hi : i + 1 < n) =>
    avgStep_eq (alphas := st.alphas) (a0 := a0) (a1 := a1) (n := n) (i := i) (by omega) hi hl h1
  rw [reconstruct_avg_steps hn hl h1, bind_eq_ok]
  constructor
  · rintro ⟨_, hok, hr⟩
    have hall := check_loop_ok _ _ _ hok
    have fits : ∀ i, i + 1 < n → TagFits st.alphas a0 a1 0 i ∧ n + i + 1 < a1.length ∧ TagFits st.alphas a0 a1 n i := by
      intro i hi
      have h := hall i (by omega)
      obtain ⟨e1, e2, e3, -⟩ := step hi
      have f1 : TagFits st.alphas a0 a1 0 i := by
        by_contra hc
        rw [e1 hc] at h; simp at h
      have f2 : n + i + 1 < a1.length := by
        by_contra hc
        have := e2 f1 (by omega)
        rw [h] at this; simp at this
      refine ⟨f1, f2, ?_⟩
      by_contra hc
      rw [e3 f1 f2 hc] at h; simp at h
    have h2 : 2 * n ≤ a1.length := by
      by_cases h : n = 1
      · omega
      · have := (fits (n - 2) (by omega)).2.1
        omega
    exact ⟨h2, fun i hi => ⟨(fits i hi).1, (fits i hi).2.2⟩, hdiv.mp hr⟩
  · rintro ⟨h2, hall, hr⟩
    exact ⟨(), check_loop _ _ (fun i hi => (step (by omega)).2.2.2 (hall i (by omega)).1 (by omega) (hall i (by omega)).2),
      hdiv.mpr hr⟩

/-! ### Point lookups -/

section Point
open Verif.Database Verif.Merkle Verif.Padding Verif.Point Verif.MerklePir

theorem part_nat (info : Info) (ix : Nat) (iy : Int) (a : List Byte) :
    part info ⟨ix, iy⟩ a =
      if a.length < (ix + 1) * info.blockSize then crash "slice bounds out of range"
      else ok ((a.drop (ix * info.blockSize)).take info.blockSize) := by
  unfold part sliceInt
  have h1 : (ix : Int) * info.blockSize = ((ix * info.blockSize : Nat) : Int) := by push_cast; rfl
  have h2 : (info.blockSize : Int) * (ix + 1) = (((ix + 1) * info.blockSize : Nat) : Int) := by
    push_cast; ring
  have h3 : (ix + 1) * info.blockSize = ix * info.blockSize + info.blockSize := by ring
  simp only [h1, h2]
  rw [if_neg (by omega), Int.toNat_natCast, Int.toNat_natCast]
  by_cases h : a.length < (ix + 1) * info.blockSize
  · rw [if_pos h]
    unfold slice
    rw [if_neg (by omega)]
  · rw [if_neg h, slice_of_le (by omega) (by omega), h3, Nat.add_sub_cancel_left]

theorem xsum_foldl (l : List Byte) (x : Byte) :
    l.foldl (· ^^^ ·) x = x ^^^ xsum l.length (fun k => l.getD k 0) := by
  have : ∀ (n : Nat) (f : Nat → Byte), xsum (n + 1) f = f 0 ^^^ xsum n (fun k => f (k + 1)) := by
    intro n f
    induction n with
    | zero => simp [xsum]
    | succ n ih => rw [xsum, ih, xsum, BitVec.xor_assoc]
  induction l generalizing x with
  | nil => simp [xsum]
  | cons a l ih =>
    rw [List.foldl_cons, ih, List.length_cons, this, BitVec.xor_assoc]
    simp

open Classical in
theorem value_eq (answers : List (List Byte)) (info : Info) (ix : Nat) (iy : Int) :
    reconstructValue answers info ⟨ix, iy⟩ =
      if SomeTooShort info.blockSize ix answers then crash "slice bounds out of range"
      else ok (combined info.blockSize ix answers) := by
  rw [reconstructValue_eq]
  by_cases h : SomeTooShort info.blockSize ix answers
  · rw [if_pos h, if_neg]
    obtain ⟨a, ha, hl⟩ := h
    intro hall
    obtain ⟨s, hs⟩ := hall a ha
    rw [part_nat, if_pos hl] at hs
    simp at hs
  · have hpart : ∀ a ∈ answers, part info ⟨ix, iy⟩ a = ok ((a.drop (ix * info.blockSize)).take info.blockSize) := by
      intro a ha
      rw [part_nat, if_neg (fun hl => h ⟨a, ha, hl⟩)]
    rw [if_neg h, if_pos (fun a ha => ⟨_, hpart a ha⟩)]
    congr 1
    have hmap : answers.map (fun a => valueOf (part info ⟨ix, iy⟩ a)) =
        answers.map (fun a => (a.drop (ix * info.blockSize)).take info.blockSize) := by
      apply List.map_congr_left
      intro a ha
      rw [hpart a ha]
      rfl
    rw [hmap]
    have hlen : ∀ x ∈ answers.map (fun a => (a.drop (ix * info.blockSize)).take info.blockSize),
        x.length = (List.replicate info.blockSize (0 : Byte)).length := by
      intro x hx
      obtain ⟨a, ha, rfl⟩ := List.mem_map.mp hx
      have := part_length (hpart a ha)
      simpa using this
    apply List.ext_getElem?
    intro t
    obtain ⟨l1, l2⟩ := foldl_xor_getD _ _ hlen t
    by_cases ht : t < info.blockSize
    · rw [List.getD_eq_getElem?_getD, List.getElem?_eq_getElem (by rw [l1]; simpa using ht), Option.getD_some] at l2
      rw [List.getElem?_eq_getElem (by rw [l1]; simpa using ht), l2]
      unfold combined
      rw [List.getElem?_map, List.getElem?_range ht, Option.map_some, xsum_foldl, List.length_map, List.length_map]
      congr 2
      · simp [List.getD_eq_getElem?_getD]
      · congr 1
        funext k
        simp only [List.getD_eq_getElem?_getD, List.getElem?_map]
        cases answers[k]? with
        | none => simp
        | some a => simp [ht]
    · rw [List.getElem?_eq_none (by rw [l1]; simpa using ht), List.getElem?_eq_none (by simp [combined]; omega)]

/-- Unpadding, by the shape of the block. -/
theorem unPad_shape (body : List Byte) {last : Byte} (hl : last ≠ 0) (n : Nat) :
    unPadBlock (body ++ last :: List.replicate n 0) = ok body := by
  rw [show body ++ last :: List.replicate n 0 = body ++ [last] ++ List.replicate n 0 by simp]
  unfold unPadBlock
  rw [trimZeros_append_zeros, trimZeros_signal body hl]
  simp

theorem shape_of (block : List Byte) (h : ¬ ∀ x ∈ block, x = 0) :
    ∃ (body : List Byte) (last : Byte) (n : Nat), block = body ++ last :: List.replicate n 0 ∧ last ≠ 0 := by
  induction block using List.reverseRecOn with
  | nil => simp at h
  | append_singleton c x ih =>
    by_cases hx : x = 0
    · subst hx
      obtain ⟨body, last, n, rfl, hl⟩ := ih (fun hc => h (by
        intro y hy
        rcases List.mem_append.mp hy with hy | hy
        · exact hc y hy
        · simpa using hy))
      exact ⟨body, last, n + 1, by rw [List.replicate_succ']; simp, hl⟩
    · exact ⟨c, x, 0, by simp, hx⟩

theorem shape_unique {body body' : List Byte} {last last' : Byte} {n n' : Nat} (hl : last ≠ 0) (hl' : last' ≠ 0)
    (h : body ++ last :: List.replicate n 0 = body' ++ last' :: List.replicate n' 0) : body = body' := by
  have h1 := unPad_shape body hl n
  rw [h, unPad_shape body' hl' n'] at h1
  exact (ok.inj h1).symm

theorem zeros_crash (block : List Byte) (h : ∀ x ∈ block, x = 0) : (unPadBlock block).isCrash := by
  have : block = List.replicate block.length 0 := List.eq_replicate_iff.mpr ⟨rfl, h⟩
  have h2 : trimZeros block = [] := by
    rw [this]
    have := trimZeros_append_zeros [] block.length
    rw [List.nil_append] at this
    rw [this]; rfl
  unfold unPadBlock
  simp [h2]

/-- A proof is decoded exactly if it has four bytes and its hashes fit. -/
theorem decode_crash (p tail : List Byte) :
    (decodeProof p tail).isCrash ↔ ¬ (4 ≤ p.length ∧ ofLE ((p ++ tail).take 4) < 2 ^ 27 ∧
      4 + 32 * ofLE ((p ++ tail).take 4) ≤ (p ++ tail).length) := by
  have hnum : (BitVec.ofNat 32 (ofLE ((p ++ tail).take 4))).toNat = ofLE ((p ++ tail).take 4) := by
    rw [BitVec.toNat_ofNat]
    apply Nat.mod_eq_of_lt
    have := ofLE_lt ((p ++ tail).take 4)
    have h4 : ((p ++ tail).take 4).length ≤ 4 := by simp
    calc _ < 256 ^ ((p ++ tail).take 4).length := this
      _ ≤ 256 ^ 4 := Nat.pow_le_pow_right (by norm_num) h4
      _ = 2 ^ 32 := by norm_num
  set c := ofLE ((p ++ tail).take 4) with hc
  unfold decodeProof
  by_cases h4 : (p ++ tail).length < 4
  · have : (slice (p ++ tail) 0 4).isCrash := (slice_crash (by omega)).mpr h4
    rw [isCrash_bind]
    simp only [this, true_or, true_iff]
    rw [List.length_append] at h4
    omega
  rw [slice_of_le (by omega) (by omega)]
  simp only [ok_bind, List.drop_zero, Nat.sub_zero]
  have hget : getLE32 ((p ++ tail).take 4) = ok (BitVec.ofNat 32 c) := by
    unfold getLE32
    rw [if_pos (by simp only [List.length_take]; omega), List.take_of_length_le (by simp)]
  rw [hget]
  simp only [ok_bind]
  rw [hnum]
  by_cases hfit : c < 2 ^ 27 ∧ 4 + 32 * c ≤ (p ++ tail).length
  · obtain ⟨hs, h1, -⟩ := forLoop_inv (n := c) (body := fun i (hs : List (List Byte)) => do
        let h ← slice (p ++ tail) ((4 + 32 * i) % 2 ^ 32) ((4 + 32 * (i + 1)) % 2 ^ 32)
        ok (hs ++ [h])) (s := []) (fun _ _ => True) trivial (by
          intro i t hi _
          rw [Nat.mod_eq_of_lt (by omega), Nat.mod_eq_of_lt (by omega),
            slice_of_le (by omega) (by omega)]
          exact ⟨_, rfl, trivial⟩)
    rw [h1]
    simp only [ok_bind]
    by_cases hp4 : p.length < 4
    · rw [if_pos hp4]
      simp only [isCrash_crash, true_iff]
      omega
    · rw [if_neg hp4]
      unfold getLE32
      rw [if_pos (by rw [List.length_drop]; omega)]
      simp only [ok_bind, isCrash_ok, false_iff, not_not]
      exact ⟨by omega, hfit⟩
  · have hloop : (forLoop c (fun i (hs : List (List Byte)) => do
        let h ← slice (p ++ tail) ((4 + 32 * i) % 2 ^ 32) ((4 + 32 * (i + 1)) % 2 ^ 32)
        ok (hs ++ [h])) []).isCrash := by
      have hpos : 0 < c := by
        rcases Nat.eq_zero_or_pos c with h | h
        · exact absurd ⟨by omega, by omega⟩ hfit
        · exact h
      -- the first hash that is out of range
      have hex : ∃ i, i < c ∧ (2 ^ 27 ≤ i + 1 ∨ (p ++ tail).length < 4 + 32 * (i + 1)) := ⟨c - 1, by omega, by omega⟩
      obtain ⟨hi, hbad⟩ := Nat.find_spec hex
      have hmin := fun {j} => Nat.find_min hex (m := j)
      set i := Nat.find hex
      obtain ⟨hs, h1, -⟩ := forLoop_inv (n := i) (body := fun i (hs : List (List Byte)) => do
        let h ← slice (p ++ tail) ((4 + 32 * i) % 2 ^ 32) ((4 + 32 * (i + 1)) % 2 ^ 32)
        ok (hs ++ [h])) (s := []) (fun _ _ => True) trivial (by
          intro j t hj _
          have := hmin hj
          rw [Nat.mod_eq_of_lt (by omega), Nat.mod_eq_of_lt (by omega),
            slice_of_le (by omega) (by omega)]
          exact ⟨_, rfl, trivial⟩)
      refine forLoop_crash hi h1 ?_
      have hi27 : i + 1 ≤ 2 ^ 27 := by
        by_contra hgt
        have := hmin (j := i - 1) (by omega)
        omega
      rw [isCrash_bind]
      left
      rcases hbad with hb | hb
      · have : i + 1 = 2 ^ 27 := by omega
        unfold slice
        rw [if_neg (by omega)]
        simp
      · by_cases h27 : i + 1 = 2 ^ 27
        · unfold slice
          rw [if_neg (by omega)]
          simp
        · rw [Nat.mod_eq_of_lt (show 4 + 32 * i < 2 ^ 32 by omega), Nat.mod_eq_of_lt (show 4 + 32 * (i + 1) < 2 ^ 32 by omega)]
          exact (slice_crash (by omega)).mpr hb
    rw [isCrash_bind]
    simp only [hloop, true_or, true_iff]
    exact fun h => hfit h.2

theorem block_crash (H : List Byte → List Byte) (info : Info) (block : List Byte) :
    (checkBlock H info block).isCrash ↔ ¬ Readable info.proofLen block := by
  by_cases hz : ∀ x ∈ block, x = 0
  · have : (checkBlock H info block).isCrash := by
      unfold checkBlock
      rw [isCrash_bind]
      exact Or.inl (zeros_crash block hz)
    simp only [this, true_iff]
    rintro ⟨body, last, n, rfl, hl, -⟩
    exact hl (hz last (by simp))
  obtain ⟨body, last, n, hb, hl⟩ := shape_of block hz
  have hread : Readable info.proofLen block ↔ 4 ≤ info.proofLen ∧ info.proofLen ≤ body.length ∧
      ofLE ((block.drop (body.length - info.proofLen)).take 4) < 2 ^ 27 ∧
      4 + 32 * ofLE ((block.drop (body.length - info.proofLen)).take 4) ≤ block.length - (body.length - info.proofLen) := by
    constructor
    · rintro ⟨body', last', n', hb', hl', h⟩
      have : body' = body := shape_unique hl' hl (by rw [← hb', ← hb])
      rw [this] at h
      exact h
    · intro h
      exact ⟨body, last, n, hb, hl, h⟩
  rw [hread]
  unfold checkBlock
  have hun : unPadBlock block = ok body := by rw [hb]; exact unPad_shape body hl n
  rw [hun]
  simp only [ok_bind]
  by_cases hpl : body.length < info.proofLen
  · rw [if_pos hpl]
    simp only [isCrash_crash, true_iff]
    omega
  rw [if_neg hpl, isCrash_bind, decode_crash]
  have hcat : body.drop (body.length - info.proofLen) ++ block.drop body.length =
      block.drop (body.length - info.proofLen) := by
    rw [hb, List.drop_append_of_le_length (Nat.sub_le _ _), List.drop_append_of_le_length le_rfl, List.drop_length,
      List.nil_append]
  rw [hcat, List.length_drop, List.length_drop]
  have hver : ∀ proof, ¬ (verifyProof H (body.take (body.length - info.proofLen)) proof info.root >>= fun v =>
      if v = true then ok (body.take (body.length - info.proofLen)) else err "REJECT!").isCrash := by
    intro proof
    unfold verifyProof generateProofHash
    rw [indexToBytes_eq proof.index.isLt]
    simp only [ok_bind]
    split <;> simp
  constructor
  · rintro (h | ⟨proof, -, h⟩)
    · intro hc
      exact h ⟨by omega, hc.2.2⟩
    · exact absurd h (hver proof)
  · intro h
    left
    intro hc
    exact h ⟨by omega, by omega, hc.2⟩

end Point

end Verif.Panic
