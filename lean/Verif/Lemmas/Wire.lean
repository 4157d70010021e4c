import Verif.Spec.Wire
import Verif.Props.PointPrivacy
import Verif.Lemmas.Deploy

/-! # The transport: messages arrive as they were sent; sizes of queries and answers -/

namespace Verif.Wire
open Res Verif.Database Verif.Point Verif.Point.Spec Verif.Wire.Spec

/-! ### Messages -/

theorem readUvarint_uvarint (n : Nat) (bs : List Byte) : readUvarint (uvarint n ++ bs) = some (n, bs) := by
  induction n using uvarint.induct with
  | case1 n h =>
    rw [uvarint, if_pos h]
    have : (BitVec.ofNat 8 n).toNat = n := by simp; omega
    simp [readUvarint, this, h]
  | case2 n h ih =>
    rw [uvarint, if_neg h]
    have h1 : (BitVec.ofNat 8 (n % 128 + 128)).toNat = n % 128 + 128 := by
      rw [BitVec.toNat_ofNat, Nat.mod_eq_of_lt (by omega)]
    rw [List.cons_append, readUvarint, h1, if_neg (by omega), ih]
    simp only [Option.map_some, Option.some.injEq, Prod.mk.injEq, and_true]
    omega

theorem unmarshal_marshal (b : List Byte) : unmarshal (marshal b) = ok b := by
  unfold marshal
  split
  · rename_i h
    rw [h]
    rfl
  · simp only [unmarshal, List.cons_append, ne_eq, not_true_eq_false, if_false, readUvarint_uvarint, if_true]

theorem marshal_injective {a b : List Byte} (h : marshal a = marshal b) : a = b := by
  have := unmarshal_marshal a
  rw [h, unmarshal_marshal, ok.injEq] at this
  exact this.symm

theorem transmit_fits {z : Gzip} (hz : Lossless z) {s r : Options} (hs : s.compressed = true) (hs1 : s.maxSend = GiB)
    (hr1 : r.maxRecv = GiB) {b : List Byte} (h : Fits z b) : transmit z s r b = ok b := by
  unfold transmit
  simp only [payload, hs, if_true, hs1, hr1]
  rw [if_neg (by have := h.2; omega), if_neg (by have := h.2; omega), hz]
  dsimp only
  rw [if_neg (by have := h.1; omega)]
  exact unmarshal_marshal b

theorem transmit_large {z : Gzip} (hz : Lossless z) {s r : Options} (hs : s.compressed = true) (hs1 : s.maxSend = GiB)
    (hr1 : r.maxRecv = GiB) {b : List Byte} (h : ¬ Fits z b) : ∃ m, transmit z s r b = err m := by
  unfold transmit
  simp only [payload, hs, if_true, hs1, hr1]
  split
  · exact ⟨_, rfl⟩
  · rename_i h1
    rw [hz]
    dsimp only
    rw [if_pos (Classical.byContradiction fun h2 => h ⟨by omega, by omega⟩)]
    exact ⟨_, rfl⟩

theorem uvarint_length {k : Nat} (hk : 0 < k) : ∀ {n : Nat}, n < 128 ^ k → (uvarint n).length ≤ k := by
  induction k with
  | zero => omega
  | succ k ih =>
    intro n hn
    rw [uvarint]
    split
    · simp
    · rename_i h
      rcases Nat.eq_zero_or_pos k with rfl | hk
      · simp at hn; omega
      · have := ih hk (n := n / 128) (by rw [Nat.pow_succ] at hn; exact Nat.div_lt_of_lt_mul (by omega))
        simp only [List.length_cons]
        omega

theorem marshal_length_le {b : List Byte} {k : Nat} (hk : 0 < k) (h : b.length < 128 ^ k) :
    (marshal b).length ≤ b.length + 1 + k := by
  unfold marshal
  split
  · simp
  · have := uvarint_length hk h
    simp only [List.cons_append, List.length_cons, List.length_append]
    omega

theorem le_marshal_length (b : List Byte) : b.length ≤ (marshal b).length := by
  unfold marshal
  split
  · rename_i h; simp [h]
  · simp only [List.cons_append, List.length_cons, List.length_append]
    omega

theorem mapM_congr {α β : Type _} {f g : α → Res β} {l : List α} (h : ∀ a ∈ l, f a = g a) : l.mapM f = l.mapM g := by
  induction l with
  | nil => rfl
  | cons a l ih => rw [List.mapM_cons, List.mapM_cons, h a (by simp), ih (fun x hx => h x (List.mem_cons_of_mem _ hx))]

/-! ### Sizes -/

/-- The sizes on a connection that carries the query `q`. -/
def linkSizes (z : Gzip) (o : Options) (db : Bytes) (q : List Byte) : Nat × Nat :=
  (size z o q, size z (serverOptions o) (match answerVec db q with | ok a => a | _ => []))

theorem sizes_eq (z : Gzip) (o : Options) (dpf : Dpf) {db : Bytes} {blocks : List (List Byte)} (hdb : Stores db blocks)
    {i n : Nat} {r : List Byte} (hC : 0 < db.info.numColumns) (hn : 0 < n) (hn2 : n ≠ 2)
    (hr : r.length = (n - 1) * (db.info.numColumns / 8 + 1)) :
    sizes z o dpf (fun _ => ok r) 0 db i n =
      ok ((shares db.info.numColumns (i % db.info.numColumns) (n - 1) r).map (linkSizes z o db)) := by
  unfold sizes
  rw [query_fixed dpf hC hn hn2 hr]
  simp only [ok_bind]
  apply Deploy.mapM_eq
  intro q hq
  obtain ⟨a, ha, -⟩ := answerVec_spec hdb q (by rw [shares_mem_length hr q hq]; omega)
  simp only [answer, OfNat.zero_ne_ofNat, if_false, linkSizes, ha, ok_bind]

theorem marshal_length {a b : List Byte} (h : a.length = b.length) : (marshal a).length = (marshal b).length := by
  unfold marshal
  have : a = [] ↔ b = [] := by rw [← List.length_eq_zero_iff, ← List.length_eq_zero_iff, h]
  by_cases hb : b = []
  · rw [if_pos hb, if_pos (this.mpr hb)]
  · rw [if_neg hb, if_neg (fun ha => hb (this.mp ha))]
    simp [h]

theorem map_eraseIdx {α β : Type _} (f : α → β) (l : List α) (m : Nat) : (l.map f).eraseIdx m = (l.eraseIdx m).map f := by
  induction l generalizing m with
  | nil => rfl
  | cons a l ih => cases m <;> simp [ih]

/-! ### The attack -/

theorem parity (l : List (List Byte)) (j : Nat) :
    xsum l.length (fun k => sel (bitOf (l.getD k []) j) 1) = sel (decide (l.countP (fun q => bitOf q j) % 2 = 1)) 1 := by
  induction l using List.reverseRecOn with
  | nil => rfl
  | append_singleton l q ih =>
    rw [List.length_append, List.length_singleton, xsum]
    have h1 : xsum l.length (fun k => sel (bitOf ((l ++ [q]).getD k []) j) 1)
        = xsum l.length (fun k => sel (bitOf (l.getD k []) j) 1) := by
      apply xsum_congr
      intro i hi
      rw [getD_append, if_pos hi]
    rw [h1, ih, getD_append, if_neg (by omega), Nat.sub_self, List.countP_append, ← sel_xor]
    congr 1
    simp only [List.getD_cons_zero, List.countP_cons, List.countP_nil]
    cases bitOf q j
    · simp
    · rcases Nat.mod_two_eq_zero_or_one (l.countP fun q => bitOf q j) with h | h
      · simp [h]; omega
      · simp [h]; omega

theorem shares_parity {C y m : Nat} {rand : List Byte} (hlen : rand.length = m * (C / 8 + 1)) (hy : y < C) (j : Nat) :
    (shares C y m rand).countP (fun q => bitOf q j) % 2 = if j = y then 1 else 0 := by
  have h := shares_sum hlen hy 1 j
  rw [← shares_length C y m rand, parity] at h
  by_cases hj : j = y
  · rw [if_pos hj]
    by_contra hc
    simp [hj, sel] at h
    rw [hj] at hc
    exact hc h
  · rw [if_neg hj]
    by_contra hc
    have : List.countP (fun q => bitOf q j) (shares C y m rand) % 2 = 1 := by omega
    simp [this, sel, hj] at h

theorem sel_zero (b : Bool) : sel b 0 = 0 := by cases b <;> rfl

theorem answer_only {db : Bytes} {blocks : List (List Byte)} (hdb : Stores db blocks) {y : Nat} (hy : y < db.info.numColumns)
    (ho : OnlyColumn db blocks y) {q : List Byte} (hq : db.info.numColumns ≤ 8 * q.length) :
    answerVec db q = ok (if bitOf q y then column db blocks y
      else List.replicate (db.info.numRows * db.info.blockSize) 0) := by
  obtain ⟨a, ha, hal, hat⟩ := answerVec_spec hdb q hq
  rw [ha]
  congr 1
  have hlen : (if bitOf q y then column db blocks y
      else List.replicate (db.info.numRows * db.info.blockSize) (0 : Byte)).length = db.info.numRows * db.info.blockSize := by
    split <;> simp [column]
  apply ext_getD (by rw [hal, hlen])
  intro p hp
  rw [hal] at hp
  have hbs : 0 < db.info.blockSize := by
    rcases Nat.eq_zero_or_pos db.info.blockSize with h | h
    · rw [h] at hp; omega
    · exact h
  have hx : p / db.info.blockSize < db.info.numRows := Nat.div_lt_of_lt_mul (by rw [Nat.mul_comm]; exact hp)
  have ht := Nat.mod_lt p hbs
  have hpe : p / db.info.blockSize * db.info.blockSize + p % db.info.blockSize = p := Nat.div_add_mod' p _
  have h := hat _ _ hx ht
  rw [hpe] at h
  rw [h]
  have hother : ∀ j, j < db.info.numColumns → sel (bitOf q j) (blk blocks (p / db.info.blockSize * db.info.numColumns + j)
      (p % db.info.blockSize)) = if j = y then sel (bitOf q y) (blk blocks (p / db.info.blockSize * db.info.numColumns + y)
      (p % db.info.blockSize)) else 0 := by
    intro j hj
    by_cases hjy : j = y
    · rw [if_pos hjy, hjy]
    · rw [if_neg hjy]
      have hb := row_bound (C := db.info.numColumns) hx
      have hz := ho (p / db.info.blockSize * db.info.numColumns + j) (by rw [hdb.count]; omega) (by
        rw [Nat.mul_comm, Nat.mul_add_mod, Nat.mod_eq_of_lt hj]; exact hjy)
      have : blk blocks (p / db.info.blockSize * db.info.numColumns + j) (p % db.info.blockSize) = 0 := by
        unfold blk
        generalize blocks.getD (p / db.info.blockSize * db.info.numColumns + j) [] = l at hz
        by_cases hl : p % db.info.blockSize < l.length
        · rw [show l.getD (p % db.info.blockSize) 0 = l[p % db.info.blockSize] by simp [List.getD, hl]]
          exact hz _ (List.getElem_mem hl)
        · exact getD_of_ge 0 (by omega)
      rw [this, sel_zero]
  rw [xsum_congr hother, xsum_single hy]
  cases bitOf q y
  · simp only [sel, Bool.false_eq_true, if_false]
    exact (getD_replicate _ _ _).symm
  · simp only [sel, if_true, column, blk]
    simp [List.getD, hp]

end Verif.Wire
