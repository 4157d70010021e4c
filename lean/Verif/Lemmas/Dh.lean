import Verif.Spec.Dh
import Verif.Lemmas.Loop
import Mathlib.Algebra.Module.Defs
import Mathlib.Algebra.BigOperators.GroupWithZero.Action
import Mathlib.Tactic.Abel

/-! # Lemmas about the group-based scheme -/

set_option linter.unusedSimpArgs false
namespace Verif.Dh
open Res Verif.Dh.Spec Verif.Parallel Finset

variable {G : Type} [AddCommGroup G]

omit [AddCommGroup G] in
theorem marshal_eq (g : Grp G) (q : List G) : marshalGroupElements g q = q.flatMap g.enc := by
  have key : ∀ (q : List G) (acc : List Byte), q.foldl (fun encoded el => encoded ++ g.enc el) acc =
      acc ++ q.flatMap g.enc := by
    intro q
    induction q with
    | nil => intro acc; simp
    | cons x q ih => intro acc; rw [List.foldl_cons, ih]; simp
  have := key q []
  rwa [List.nil_append] at this

theorem flatMap_length {α : Type _} {f : α → List Byte} {n : Nat} {l : List α} (h : ∀ x ∈ l, (f x).length = n) :
    (l.flatMap f).length = l.length * n := by
  induction l with
  | nil => simp
  | cons x l ih =>
    rw [List.flatMap_cons, List.length_append, h x (by simp), ih (fun y hy => h y (by simp [hy])), List.length_cons,
      Nat.succ_mul]
    omega

/-- Element `i` of a sequence of pieces of equal length. -/
theorem flatMap_piece {α : Type _} {f : α → List Byte} {n : Nat} {l : List α} (h : ∀ x ∈ l, (f x).length = n) {i : Nat}
    (hi : i < l.length) : ((l.flatMap f).drop (i * n)).take n = f l[i] := by
  induction l generalizing i with
  | nil => simp at hi
  | cons x l ih =>
    have hx := h x (by simp)
    cases i with
    | zero => simp [hx.symm ▸ List.take_left]
    | succ i =>
      rw [List.flatMap_cons, Nat.succ_mul, Nat.add_comm, ← List.drop_drop, ← hx, List.drop_left, hx]
      have := ih (fun y hy => h y (by simp [hy])) (i := i) (by simpa using hi)
      simpa using this

theorem unmarshal_marshal (g : Grp G) (es : Nat) (h0 : 0 < es) (v : List G) (hl : ∀ x ∈ v, (g.enc x).length = es)
    (hd : ∀ x ∈ v, g.dec (g.enc x) = ok x) : unmarshalGroupElements g (marshalGroupElements g v) es = ok v := by
  rw [marshal_eq]
  unfold unmarshalGroupElements
  have hlen := flatMap_length hl
  rw [if_neg (by omega), hlen]
  have hc : (v.length * es + es - 1) / es = v.length := by
    rw [show v.length * es + es - 1 = es * v.length + (es - 1) by rw [Nat.mul_comm]; omega, Nat.mul_add_div h0,
      Nat.div_eq_of_lt (by omega), Nat.add_zero]
  rw [hc]
  have := forLoop_eq (n := v.length) (body := fun i decoded => do
    let b ← slice (v.flatMap g.enc) (i * es) (i * es + es)
    let elem ← g.dec b
    ok (decoded ++ [elem])) (fun i => v.take i) (by
      intro i hi
      have hle : i * es + es ≤ v.length * es := by
        rw [← Nat.succ_mul]; exact Nat.mul_le_mul_right _ hi
      rw [slice_of_le (by omega) (by omega), ok_bind, show i * es + es - i * es = es by omega, flatMap_piece hl hi,
        hd _ (List.getElem_mem hi), ok_bind, List.take_add_one, List.getElem?_eq_getElem hi]
      rfl)
  simpa using this

omit [AddCommGroup G] in
theorem unmarshal_length {g : Grp G} {q : List Byte} {es : Nat} {w : List G}
    (h : unmarshalGroupElements g q es = ok w) : w.length * es = q.length := by
  unfold unmarshalGroupElements at h
  split at h
  · cases h
  rename_i h0
  have hinv := forLoop_inv_ok (P := fun i (s : List G) => s.length = i ∧ i * es ≤ q.length) (by simp) (by
    intro i t t' hi ht hb
    obtain ⟨b, h1, h2⟩ := bind_eq_ok.mp hb
    obtain ⟨e, h3, h4⟩ := bind_eq_ok.mp h2
    simp only [ok.injEq] at h4
    subst h4
    have hs := (slice_eq_ok.mp h1).2.1
    refine ⟨by simp [ht.1], by rw [Nat.succ_mul]; omega⟩) h
  obtain ⟨h1, h2⟩ := hinv
  rw [h1]
  have h3 : q.length ≤ (q.length + es - 1) / es * es := by
    have := Nat.div_add_mod (q.length + es - 1) es
    have hm := Nat.mod_lt (q.length + es - 1) (Nat.pos_of_ne_zero h0)
    rw [Nat.mul_comm] at this
    omega
  omega

/-- A loop that adds elements over set bits. -/
theorem sum_loop (db : Elliptic) (x : Nat → G) (i : Nat)
    (body : Nat → G → Res G)
    (hb : ∀ j p, j < db.info.numColumns → body j p = ok (if Bit db i j then p + x j else p)) :
    forLoop db.info.numColumns body 0 = ok (rowSum db x i) := by
  have := forLoop_eq (n := db.info.numColumns) (body := body)
    (fun m => ∑ j ∈ range m, if Bit db i j then x j else 0) (by
      intro j hj
      rw [hb j _ hj, sum_range_succ]
      split <;> simp)
  simpa [rowSum] using this

theorem entry_in {db : Elliptic} (hc : db.entries.length = db.info.numRows * db.info.numColumns) {i j : Nat}
    (hi : i < db.info.numRows) (hj : j < db.info.numColumns) :
    i * db.info.numColumns + j < db.entries.length := by
  have : (i + 1) * db.info.numColumns ≤ db.info.numRows * db.info.numColumns := Nat.mul_le_mul_right _ hi
  rw [Nat.succ_mul] at this
  omega

theorem idx_bit {db : Elliptic} (hc : db.entries.length = db.info.numRows * db.info.numColumns) {i j : Nat}
    (hi : i < db.info.numRows) (hj : j < db.info.numColumns) :
    ∃ b, idx db.entries (i * db.info.numColumns + j) = ok b ∧ (b = 1 ↔ Bit db i j) := by
  have h := entry_in hc hi hj
  refine ⟨db.entries[i * db.info.numColumns + j], idx_of_lt h, ?_⟩
  unfold Bit
  rw [show db.entries.getD (i * db.info.numColumns + j) 0 = db.entries[i * db.info.numColumns + j] by
    simp [List.getD, h]]

theorem processRows_eq (db : Elliptic) (hc : db.entries.length = db.info.numRows * db.info.numColumns) (b e : Nat)
    (hbe : b ≤ e) (he : e ≤ db.info.numRows) (x : Nat → G) :
    processRows db b e ((List.range db.info.numColumns).map x) =
      ok ((List.range (e - b)).map (fun k => rowSum db x (b + k))) := by
  unfold processRows
  rw [if_neg (by omega)]
  have := forLoop_eq (n := e - b) (body := fun k prods => do
    let p ← forLoop db.info.numColumns (fun j p => do
      let b ← idx db.entries ((b + k) * db.info.numColumns + j)
      if b = 1 then do
        let q ← idx ((List.range db.info.numColumns).map x) j
        ok (p + q)
      else ok p) 0
    ok (prods ++ [p])) (fun m => (List.range m).map (fun k => rowSum db x (b + k))) (by
      intro k hk
      rw [sum_loop db x (b + k) _ (by
        intro j p hj
        obtain ⟨v, h1, h2⟩ := idx_bit hc (i := b + k) (by omega) hj
        rw [h1, ok_bind]
        by_cases hv : v = 1
        · rw [if_pos hv, if_pos (h2.mp hv), idx_of_lt (by simpa using hj)]
          simp
        · rw [if_neg hv, if_neg (fun h => hv (h2.mpr h))]), ok_bind, List.range_succ, List.map_append]
      rfl)
  simpa using this

theorem computeDigests_eq (g : Grp G) (db : Elliptic) (hc : db.entries.length = db.info.numRows * db.info.numColumns)
    (b e : Nat) (hbe : b ≤ e) (he : e ≤ db.info.numRows) :
    computeDigests g b e db.entries db.info.numColumns =
      ok ((List.range (e - b)).flatMap (fun k => g.enc (rowSum db (hashIndexToGroup g) (b + k)))) := by
  unfold computeDigests
  rw [if_neg (by omega)]
  have := forLoop_eq (n := e - b) (body := fun k digs => do
    let d ← forLoop db.info.numColumns (fun j d => do
      let b ← idx db.entries ((b + k) * db.info.numColumns + j)
      ok (if b = 1 then d + hashIndexToGroup g j else d)) 0
    ok (digs ++ g.enc d))
    (fun m => (List.range m).flatMap (fun k => g.enc (rowSum db (hashIndexToGroup g) (b + k)))) (by
      intro k hk
      rw [sum_loop db (hashIndexToGroup g) (b + k) _ (by
        intro j p hj
        obtain ⟨v, h1, h2⟩ := idx_bit hc (i := b + k) (by omega) hj
        rw [h1, ok_bind]
        by_cases hv : v = 1
        · rw [if_pos hv, if_pos (h2.mp hv)]
        · rw [if_neg hv, if_neg (fun h => hv (h2.mpr h))]), ok_bind, List.range_succ, List.flatMap_append]
      simp)
  simpa using this

/-- The chunks, one after the other, are all rows. -/
theorem chunks_flatten {α : Type _} (f : Nat → List α) (n R : Nat) (hn : 0 < n)
    (hsafe : (n - 1) * ceilDiv R n ≤ R) :
    ((List.range n).map (fun i => (List.range ((chunkBounds R (ceilDiv R n) i).2 - (chunkBounds R (ceilDiv R n) i).1)).flatMap
      (fun k => f ((chunkBounds R (ceilDiv R n) i).1 + k)))).flatten = (List.range R).flatMap f := by
  have hcover : R ≤ n * ceilDiv R n := by
    unfold ceilDiv
    have := Nat.div_add_mod (R + n - 1) n
    have hm := Nat.mod_lt (R + n - 1) hn
    omega
  generalize ceilDiv R n = w at *
  have key : ∀ m, m ≤ n → ((List.range m).map (fun i => (List.range ((chunkBounds R w i).2 - (chunkBounds R w i).1)).flatMap
      (fun k => f ((chunkBounds R w i).1 + k)))).flatten = (List.range (min R (m * w))).flatMap f := by
    intro m
    induction m with
    | zero => intro _; simp
    | succ m ih =>
      intro hm
      have hmw : m * w ≤ R := le_trans (Nat.mul_le_mul_right _ (by omega)) hsafe
      rw [List.range_succ, List.map_append, List.flatten_append, ih (by omega), Nat.min_eq_right hmw]
      have h1 : (chunkBounds R w m).1 = m * w := rfl
      have h2 : (chunkBounds R w m).2 = min R ((m + 1) * w) := by
        unfold chunkBounds
        dsimp only
        split <;> omega
      have hle : m * w ≤ min R ((m + 1) * w) := by
        rw [Nat.le_min, Nat.succ_mul]; omega
      obtain ⟨d, hd⟩ : ∃ d, min R ((m + 1) * w) = m * w + d := ⟨_, (Nat.add_sub_of_le hle).symm⟩
      simp only [List.map_cons, List.map_nil, List.flatten_cons, List.flatten_nil, List.append_nil]
      rw [h1, h2, hd, Nat.add_sub_cancel_left, List.range_add, List.flatMap_append, List.flatMap_map]
  rw [key n (le_refl _), Nat.min_eq_left hcover]

theorem chunk_le {n R i : Nat} (hi : i < n) (hsafe : (n - 1) * ceilDiv R n ≤ R) :
    (chunkBounds R (ceilDiv R n) i).1 ≤ (chunkBounds R (ceilDiv R n) i).2 ∧ (chunkBounds R (ceilDiv R n) i).2 ≤ R := by
  have : i * ceilDiv R n ≤ R := le_trans (Nat.mul_le_mul_right _ (by omega)) hsafe
  unfold chunkBounds
  dsimp only
  split
  · omega
  · rw [Nat.succ_mul] at *; omega

theorem gather_ok {β : Type _} {n : Nat} {work : Nat → Res β} {v : Nat → β} (h : ∀ i, i < n → work i = ok (v i)) :
    gather n work = ok ((List.range n).map v) := by
  unfold gather
  have : ∀ l : List Nat, (∀ i ∈ l, i < n) → l.mapM work = ok (l.map v) := by
    intro l
    induction l with
    | nil => intro _; rfl
    | cons a l ih =>
      intro hl
      rw [List.mapM_cons, h a (hl a (by simp)), ok_bind, ih (fun i hi => hl i (by simp [hi])), ok_bind]
      rfl
  exact this _ (by simp)

theorem rowDigests_eq (g : Grp G) (db : Elliptic) (hc : db.entries.length = db.info.numRows * db.info.numColumns)
    (n : Nat) (hn : 0 < n) (hsafe : (n - 1) * ceilDiv db.info.numRows n ≤ db.info.numRows) :
    rowDigests g n db.info.numRows db.info.numColumns db.entries =
      ok ((List.range db.info.numRows).flatMap (fun i => g.enc (rowSum db (hashIndexToGroup g) i))) := by
  unfold rowDigests
  rw [gather_ok (fun i hi => computeDigests_eq g db hc _ _ (chunk_le hi hsafe).1 (chunk_le hi hsafe).2), ok_bind,
    chunks_flatten (fun i => g.enc (rowSum db (hashIndexToGroup g) i)) n _ hn hsafe]

theorem rowSum_query (db : Elliptic) (h : Nat → G) (r t : Int) {y : Nat} (hy : y < db.info.numColumns) (i : Nat) :
    rowSum db (queryElement h r t y) i = r • rowSum db h i + if Bit db i y then t • h y else 0 := by
  unfold rowSum queryElement
  have hone : (if Bit db i y then t • h y else 0) =
      ∑ j ∈ range db.info.numColumns, if j = y then (if Bit db i y then t • h y else 0) else 0 := by
    rw [sum_ite_eq']
    simp [hy]
  rw [hone, smul_sum, ← sum_add_distrib]
  apply sum_congr rfl
  intro j _
  by_cases hj : j = y
  · subst hj
    by_cases hb : Bit db i j <;> simp [hb]
  · by_cases hb : Bit db i j <;> simp [hb, hj]

end Verif.Dh
