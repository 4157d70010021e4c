import Verif.Spec.Point

set_option linter.unusedSimpArgs false

/-! # Lemmas for point retrieval -/

namespace Verif.Point
open Res Verif.Database Verif.Point.Spec

/-! ### XOR sums -/

/-- XOR of `f 0, ..., f (n-1)`. -/
def xsum : Nat → (Nat → Byte) → Byte
  | 0, _ => 0
  | n + 1, f => xsum n f ^^^ f n

theorem xsum_congr {n : Nat} {f g : Nat → Byte} (h : ∀ i, i < n → f i = g i) : xsum n f = xsum n g := by
  induction n with
  | zero => rfl
  | succ n ih => rw [xsum, xsum, ih (fun i hi => h i (by omega)), h n (by omega)]

theorem xsum_zero (n : Nat) : xsum n (fun _ => 0) = 0 := by
  induction n with
  | zero => rfl
  | succ n ih => rw [xsum, ih]; rfl

theorem xor4 (a b c d : Byte) : (a ^^^ b) ^^^ (c ^^^ d) = (a ^^^ c) ^^^ (b ^^^ d) := by
  rw [BitVec.xor_assoc, BitVec.xor_assoc, ← BitVec.xor_assoc b, BitVec.xor_comm b c, BitVec.xor_assoc c]

theorem xsum_xor (n : Nat) (f g : Nat → Byte) : xsum n (fun i => f i ^^^ g i) = xsum n f ^^^ xsum n g := by
  induction n with
  | zero => simp [xsum]
  | succ n ih => rw [xsum, ih, xsum, xsum, xor4]

theorem xsum_comm (n m : Nat) (f : Nat → Nat → Byte) :
    xsum n (fun i => xsum m (f i)) = xsum m (fun j => xsum n (fun i => f i j)) := by
  induction n with
  | zero => exact (xsum_zero m).symm
  | succ n ih => rw [xsum, ih, ← xsum_xor]; rfl

theorem xsum_single {n k : Nat} (hk : k < n) (f : Nat → Byte) :
    xsum n (fun i => if i = k then f i else 0) = f k := by
  induction n with
  | zero => omega
  | succ n ih =>
    rw [xsum]
    by_cases h : k = n
    · subst h
      rw [xsum_congr (g := fun _ => 0) (fun i hi => by rw [if_neg (by omega)]), xsum_zero, if_pos rfl]
      simp
    · rw [ih (by omega), if_neg (by omega)]; simp

/-! ### Bytes of lists -/

theorem getD_of_ge {α : Type _} {l : List α} {i : Nat} (d : α) (h : l.length ≤ i) : l.getD i d = d := by
  simp [List.getD, h]

theorem ext_getD {l l' : List Byte} (hl : l.length = l'.length)
    (h : ∀ i, i < l.length → l.getD i 0 = l'.getD i 0) : l = l' := by
  apply List.ext_getElem hl
  intro i h1 h2
  have := h i h1
  simpa [List.getD, h1, h2] using this

theorem getD_append {α : Type _} (l l' : List α) (i : Nat) (d : α) :
    (l ++ l').getD i d = if i < l.length then l.getD i d else l'.getD (i - l.length) d := by
  split
  · rename_i h; simp [List.getD, List.getElem?_append_left h]
  · rename_i h; simp [List.getD, List.getElem?_append_right (Nat.le_of_not_lt h)]

theorem getD_drop {α : Type _} (l : List α) (i j : Nat) (d : α) : (l.drop i).getD j d = l.getD (i + j) d := by
  simp [List.getD]

theorem getD_take {α : Type _} (l : List α) (n j : Nat) (d : α) :
    (l.take n).getD j d = if j < n then l.getD j d else d := by
  simp only [List.getD, List.getElem?_take]
  split <;> simp

theorem getD_replicate {α : Type _} (n j : Nat) (d : α) : (List.replicate n d).getD j d = d := by
  simp only [List.getD, List.getElem?_replicate]
  split <;> simp

theorem getD_xor {d e : List Byte} (h : e.length ≤ d.length) (t : Nat) :
    (fastxor d d e).getD t 0 = d.getD t 0 ^^^ e.getD t 0 := by
  rw [fastxor_self h, getD_append]
  have hl : (List.zipWith (· ^^^ ·) (d.take e.length) e).length = e.length := by simp; omega
  rw [hl]
  split
  · rename_i ht
    have htd : t < d.length := by omega
    simp [List.getD, ht, htd]
  · rename_i ht
    rw [getD_drop, getD_of_ge (l := e) _ (by omega)]
    rw [show e.length + (t - e.length) = t by omega]
    exact (BitVec.xor_zero).symm

theorem bit_test (b : Byte) (k : Nat) : (b >>> k) &&& 1 = 1 ↔ b.getLsbD k = true := by
  constructor
  · intro h
    have := congrArg (fun x : Byte => x.getLsbD 0) h
    simpa using this
  · intro h
    apply BitVec.eq_of_getLsbD_eq
    intro i hi
    simp only [BitVec.getLsbD_and, BitVec.getLsbD_ushiftRight]
    rcases Nat.eq_zero_or_pos i with rfl | hi0
    · simp [h]
    · have : (1 : Byte).getLsbD i = false := by
        simp [BitVec.getLsbD_one]; omega
      rw [this]; simp

/-! ### Blocks in a flat array -/

/-- Byte `t` of block `j`, zero beyond its end. -/
def blk (blocks : List (List Byte)) (j t : Nat) : Byte := (blocks.getD j []).getD t 0

/-- Selection by a bit. -/
def sel (b : Bool) (x : Byte) : Byte := if b then x else 0

theorem sel_xor (a b : Bool) (x : Byte) : sel (a ^^ b) x = sel a x ^^^ sel b x := by
  cases a <;> cases b <;> simp [sel]

theorem flatten_take_length (blocks : List (List Byte)) {j : Nat} (h : j < blocks.length) :
    (blocks.take (j + 1)).flatten.length = (blocks.take j).flatten.length + (blocks.getD j []).length := by
  rw [List.take_add_one, List.flatten_append, List.length_append]
  simp [List.getD, h]

theorem flatten_drop (blocks : List (List Byte)) (j : Nat) :
    blocks.flatten.drop (blocks.take j).flatten.length = (blocks.drop j).flatten := by
  conv_lhs => rw [← List.take_append_drop j blocks, List.flatten_append]
  have : (List.take j (List.take j blocks ++ List.drop j blocks)) = List.take j blocks := by
    rw [List.take_append_drop]
  rw [this]
  exact List.drop_left

theorem slice_block (blocks : List (List Byte)) (rest : List Byte) {j : Nat} (h : j < blocks.length) :
    slice (blocks.flatten ++ rest) (blocks.take j).flatten.length
      ((blocks.take j).flatten.length + (blocks.getD j []).length) = ok (blocks.getD j []) := by
  have h1 := flatten_take_length blocks h
  have h2 : (blocks.take (j + 1)).flatten.length ≤ blocks.flatten.length := by
    conv_rhs => rw [← List.take_append_drop (j + 1) blocks, List.flatten_append, List.length_append]
    omega
  rw [slice_of_le (by omega) (by rw [List.length_append]; omega)]
  congr 1
  rw [List.drop_append_of_le_length (by omega), flatten_drop, List.drop_eq_getElem_cons h]
  have : blocks.getD j [] = blocks[j] := by simp [List.getD, h]
  rw [this, Nat.add_sub_cancel_left, List.flatten_cons, List.append_assoc, List.take_left]

theorem xorValues_spec (bs : List (List Byte)) (q out rest : List Byte) (hq : bs.length ≤ 8 * q.length)
    (hfit : ∀ b ∈ bs, b.length ≤ out.length) :
    ∃ r, xorValues (bs.flatten ++ rest) (bs.map List.length) q out = ok r ∧ r.length = out.length ∧
      ∀ t, r.getD t 0 = out.getD t 0 ^^^ xsum bs.length (fun j => sel (bitOf q j) (blk bs j t)) := by
  unfold xorValues
  obtain ⟨⟨p, r⟩, hr, hp, hl, ht⟩ := forLoop_inv (n := (bs.map List.length).length)
    (body := fun j (st : Nat × List Byte) => do
      let (pos, out) := st
      let qb ← idx q (j / 8)
      let bl ← idx (bs.map List.length) j
      let out ← if (qb >>> (j % 8)) &&& 1 = 1 then do
          let e ← slice (bs.flatten ++ rest) pos (pos + bl)
          ok (fastxor out out e)
        else ok out
      ok (pos + bl, out)) (s := (0, out))
    (fun j st => st.1 = (bs.take j).flatten.length ∧ st.2.length = out.length ∧
      ∀ t, st.2.getD t 0 = out.getD t 0 ^^^ xsum j (fun j => sel (bitOf q j) (blk bs j t)))
    ⟨by simp, rfl, by simp [xsum]⟩ (by
      rintro j ⟨pos, o⟩ hj ⟨h1, h2, h3⟩
      simp only at h1 h2 h3
      simp only [List.length_map] at hj
      have hb : (bs.getD j []).length ≤ out.length := by
        have : bs.getD j [] = bs[j] := by simp [List.getD, hj]
        rw [this]; exact hfit _ (List.getElem_mem hj)
      have hlen : idx (bs.map List.length) j = ok (bs.getD j []).length := by
        rw [idx_of_lt (by simpa using hj)]; simp [List.getD, hj]
      simp only [idx_getD (0 : Byte) (show j / 8 < q.length by omega), ok_bind, hlen]
      subst h1
      rw [slice_block bs rest hj]
      simp only [bit_test]
      refine ⟨((bs.take (j + 1)).flatten.length,
          if bitOf q j then fastxor o o (bs.getD j []) else o), ?_, ?_⟩
      · by_cases hbit : bitOf q j = true
        · have : (q.getD (j / 8) 0).getLsbD (j % 8) = true := hbit
          rw [if_pos this, if_pos hbit, flatten_take_length bs hj]; rfl
        · have : ¬ (q.getD (j / 8) 0).getLsbD (j % 8) = true := hbit
          rw [if_neg this, if_neg hbit, flatten_take_length bs hj]
      · refine ⟨rfl, ?_, ?_⟩
        · dsimp only; split <;> simp [h2]
        · intro t
          dsimp only
          rw [xsum, ← BitVec.xor_assoc, ← h3 t]
          by_cases hbit : bitOf q j = true
          · rw [if_pos hbit, getD_xor (by omega), hbit]; rfl
          · rw [if_neg hbit]
            simp only [Bool.not_eq_true] at hbit
            rw [hbit]; simp [sel])
  refine ⟨r, by rw [hr]; rfl, hl, ?_⟩
  simpa using ht

/-- Row `i` of a matrix stored row by row. -/
def rowOf {α : Type _} (l : List α) (C i : Nat) : List α := (l.drop (i * C)).take C

theorem row_bound {R C i : Nat} (hi : i < R) : i * C + C ≤ R * C := by
  rw [← Nat.succ_mul]; exact Nat.mul_le_mul_right _ hi

theorem rowOf_length {α : Type _} {l : List α} {R C i : Nat} (hl : l.length = R * C) (hi : i < R) :
    (rowOf l C i).length = C := by
  have := row_bound (C := C) hi
  simp [rowOf]; omega

theorem rowOf_getD {α : Type _} (l : List α) (C i : Nat) {j : Nat} (hj : j < C) (d : α) :
    (rowOf l C i).getD j d = l.getD (i * C + j) d := by
  rw [rowOf, getD_take, if_pos hj, getD_drop]

theorem slice_row {blocks : List (List Byte)} (rest : List Byte) {R C i : Nat} (hi : i < R) : slice (blocks.flatten ++ rest) (blocks.take (i * C)).flatten.length
      (blocks.take (i * C + C)).flatten.length = ok (rowOf blocks C i).flatten := by
  have hb := row_bound (C := C) hi
  have h1 : blocks.take (i * C + C) = blocks.take (i * C) ++ rowOf blocks C i := by
    rw [rowOf, List.take_add]
  have h2 : (blocks.take (i * C + C)).flatten.length ≤ blocks.flatten.length := by
    conv_rhs => rw [← List.take_append_drop (i * C + C) blocks, List.flatten_append, List.length_append]
    omega
  have h3 : (blocks.take (i * C + C)).flatten.length =
      (blocks.take (i * C)).flatten.length + (rowOf blocks C i).flatten.length := by
    rw [h1, List.flatten_append, List.length_append]
  rw [slice_of_le (by omega) (by rw [List.length_append]; omega)]
  congr 1
  rw [List.drop_append_of_le_length (by omega), flatten_drop, h3, Nat.add_sub_cancel_left]
  have h4 : blocks.drop (i * C) = rowOf blocks C i ++ blocks.drop (i * C + C) := by
    rw [rowOf, ← List.drop_drop, List.take_append_drop]
  rw [h4, List.flatten_append, List.append_assoc, List.take_left]

/-- What a server computes from a selection string `q`. -/
theorem answerVec_spec {db : Bytes} {blocks : List (List Byte)} (hdb : Stores db blocks) (q : List Byte)
    (hq : db.info.numColumns ≤ 8 * q.length) :
    ∃ a, answerVec db q = ok a ∧ a.length = db.info.numRows * db.info.blockSize ∧
      ∀ i t, i < db.info.numRows → t < db.info.blockSize → a.getD (i * db.info.blockSize + t) 0 =
        xsum db.info.numColumns (fun j => sel (bitOf q j) (blk blocks (i * db.info.numColumns + j) t)) := by
  obtain ⟨hcount, ⟨rest, hent⟩, hlens, hfits⟩ := hdb
  unfold answerVec
  simp only
  generalize db.info.numRows = R at *
  generalize db.info.numColumns = C at *
  generalize db.info.blockSize = bs at *
  rw [hent, hlens]
  obtain ⟨⟨p, n, a⟩, hr, -, -, hal, hat⟩ := forLoop_inv (n := R)
    (body := fun i (st : Nat × Nat × List Byte) => do
      let (prevPos, nextPos, out) := st
      let nextPos ← forLoop C (fun j np => do
        let l ← idx (blocks.map List.length) (i * C + j)
        ok (np + l)) nextPos
      let es ← slice (blocks.flatten ++ rest) prevPos nextPos
      let bls ← slice (blocks.map List.length) (i * C) ((i + 1) * C)
      let o ← slice out (i * bs) ((i + 1) * bs)
      let o ← xorValues es bls q o
      let out ← copyAt out (i * bs) o
      ok (nextPos, nextPos, out))
    (s := ((0 : Nat), (0 : Nat), List.replicate (R * bs) (0 : Byte)))
    (fun i st => st.1 = (blocks.take (i * C)).flatten.length ∧ st.2.1 = (blocks.take (i * C)).flatten.length ∧
      st.2.2.length = R * bs ∧ ∀ r t, r < R → t < bs → st.2.2.getD (r * bs + t) 0 =
        if r < i then xsum C (fun j => sel (bitOf q j) (blk blocks (r * C + j) t)) else 0)
    ⟨by simp, by simp, by simp, by intro r t _ _; rw [if_neg (by omega)]; exact getD_replicate _ _ _⟩ (by
      rintro i ⟨pp, np, out⟩ hi ⟨h1, h2, h3, h4⟩
      simp only at h1 h2 h3 h4
      subst h1 h2
      have hb := row_bound (C := C) hi
      have hbb := row_bound (C := bs) hi
      have hnp : forLoop C (fun j np => do
          let l ← idx (blocks.map List.length) (i * C + j)
          ok (np + l)) (blocks.take (i * C)).flatten.length = ok (blocks.take (i * C + C)).flatten.length := by
        refine Exists.elim (forLoop_inv (s := (blocks.take (i * C)).flatten.length)
          (fun j np => np = (blocks.take (i * C + j)).flatten.length) (by simp) ?_)
          (fun t ht => by obtain ⟨ha, hb⟩ := ht; rw [hb] at ha; exact ha)
        rintro j np hj rfl
        have hlt : i * C + j < blocks.length := by omega
        refine ⟨(blocks.take (i * C + (j + 1))).flatten.length, ?_, rfl⟩
        rw [idx_of_lt (by simpa using hlt), ← Nat.add_assoc, flatten_take_length _ hlt]
        simp [List.getD, hlt]
      simp only [hnp, ok_bind]
      rw [slice_row (R := R) rest hi]
      have hsl : slice (blocks.map List.length) (i * C) ((i + 1) * C) = ok ((rowOf blocks C i).map List.length) := by
        rw [Nat.succ_mul, slice_of_le (by omega) (by simp; omega), Nat.add_sub_cancel_left]
        simp [rowOf, List.map_take, List.map_drop]
      have hso : slice out (i * bs) ((i + 1) * bs) = ok (rowOf out bs i) := by
        rw [Nat.succ_mul, slice_of_le (by omega) (by omega), Nat.add_sub_cancel_left]; rfl
      simp only [hsl, hso, ok_bind]
      have hrl := rowOf_length hcount hi
      have hol := rowOf_length h3 hi
      obtain ⟨o, hx, hol', hot⟩ := xorValues_spec (rowOf blocks C i) q (rowOf out bs i) [] (by omega) (by
        intro b hbm
        rw [hol]
        exact hfits b (List.mem_of_mem_drop (List.mem_of_mem_take hbm)))
      rw [List.append_nil] at hx
      rw [hx]
      simp only [ok_bind]
      have holen : o.length = bs := by omega
      rw [copyAt_of_le (by omega)]
      simp only [ok_bind]
      refine ⟨_, rfl, by rw [Nat.succ_mul], by rw [Nat.succ_mul], ?_, ?_⟩
      · simp; omega
      · intro r t hr ht
        have htk : (out.take (i * bs)).length = i * bs := by simp; omega
        simp only
        rw [getD_append, getD_append]
        simp only [List.length_append, htk, holen]
        rcases Nat.lt_trichotomy r i with hri | rfl | hri
        · have := row_bound (C := bs) hri
          rw [if_pos (by omega), if_pos (by omega), getD_take, if_pos (by omega), h4 r t hr ht,
            if_pos hri, if_pos (by omega)]
        · rw [if_pos (by omega), if_neg (by omega), if_pos (by omega), Nat.add_sub_cancel_left, hot t,
            rowOf_getD _ _ _ ht, h4 r t hr ht, if_neg (by omega), hrl]
          rw [show (0 : Byte) ^^^ xsum C (fun j => sel (bitOf q j) (blk (rowOf blocks C r) j t)) =
            xsum C (fun j => sel (bitOf q j) (blk (rowOf blocks C r) j t)) from BitVec.zero_xor]
          exact xsum_congr (fun j hj => by rw [blk, rowOf_getD _ _ _ hj]; rfl)
        · have := row_bound (C := bs) hri
          rw [if_neg (by omega), getD_drop, if_neg (by omega)]
          have := h4 r t hr ht
          rw [if_neg (by omega)] at this
          rw [show i * bs + bs + (r * bs + t - (i * bs + bs)) = r * bs + t by omega]
          exact this)
  refine ⟨a, by rw [hr]; rfl, hal, ?_⟩
  intro i t hi ht
  have := hat i t hi ht
  rwa [if_pos hi] at this

/-! ### Reconstruction -/

/-- The value of a call that returned. -/
def valueOf (r : Res (List Byte)) : List Byte := match r with | ok s => s | _ => []

/-- The part of an answer the client looks at. -/
def part (info : Info) (st : State) (a : List Byte) : Res (List Byte) :=
  sliceInt a (st.ix * info.blockSize) (info.blockSize * (st.ix + 1))

theorem part_length {info : Info} {st : State} {a s : List Byte} (h : part info st a = ok s) :
    s.length = info.blockSize := by
  unfold part sliceInt at h
  split at h
  · simp at h
  · rename_i hn
    have := slice_length h
    have h1 : (info.blockSize : Int) * (st.ix + 1) = st.ix * info.blockSize + info.blockSize := by ring
    omega

theorem part_of_row {info : Info} {i : Nat} {iy : Int} {a : List Byte} {R : Nat}
    (ha : a.length = R * info.blockSize) (hi : i < R) :
    part info ⟨i, iy⟩ a = ok (rowOf a info.blockSize i) := by
  have hb := row_bound (C := info.blockSize) hi
  unfold part sliceInt
  have h1 : (i : Int) * info.blockSize = ((i * info.blockSize : Nat) : Int) := by push_cast; rfl
  have h2 : (info.blockSize : Int) * (i + 1) = ((i * info.blockSize + info.blockSize : Nat) : Int) := by
    push_cast; ring
  simp only [h1, h2]
  rw [if_neg (by omega), Int.toNat_natCast, Int.toNat_natCast, slice_of_le (by omega) (by omega),
    Nat.add_sub_cancel_left]
  rfl

theorem foldl_xor_getD (l : List (List Byte)) (s : List Byte) (h : ∀ x ∈ l, x.length = s.length) (t : Nat) :
    (l.foldl (fun s x => fastxor s s x) s).length = s.length ∧
    (l.foldl (fun s x => fastxor s s x) s).getD t 0 =
      s.getD t 0 ^^^ xsum l.length (fun k => (l.getD k []).getD t 0) := by
  induction l generalizing s with
  | nil => simp [xsum]
  | cons x l ih =>
    have hx := h x (by simp)
    obtain ⟨h1, h2⟩ := ih (fastxor s s x) (fun y hy => by rw [fastxor_length]; exact h y (by simp [hy]))
    rw [List.foldl_cons]
    refine ⟨by rw [h1, fastxor_length], ?_⟩
    rw [h2, getD_xor (by omega), BitVec.xor_assoc]
    congr 1
    have : ∀ (n : Nat) (f : Nat → Byte), xsum (n + 1) f = f 0 ^^^ xsum n (fun k => f (k + 1)) := by
      intro n f
      induction n with
      | zero => simp [xsum]
      | succ n ih => rw [xsum, ih, xsum, BitVec.xor_assoc]
    rw [List.length_cons, this]
    simp

open Classical in
/-- Reconstruction succeeds exactly when every answer is long enough, and is then the XOR of the parts. -/
theorem reconstructValue_eq (answers : List (List Byte)) (info : Info) (st : State) :
    reconstructValue answers info st =
      if ∀ a ∈ answers, ∃ s, part info st a = ok s then
        ok ((answers.map (fun a => valueOf (part info st a))).foldl (fun s x => fastxor s s x)
          (List.replicate info.blockSize 0))
      else crash "slice bounds out of range" := by
  have key : ∀ (l : List (List Byte)) (s : List Byte),
      l.foldlM (fun sum a => do
        let s ← sliceInt a (st.ix * info.blockSize) (info.blockSize * (st.ix + 1))
        ok (fastxor sum sum s)) s =
      if ∀ a ∈ l, ∃ s, part info st a = ok s then
        ok ((l.map (fun a => valueOf (part info st a))).foldl (fun s x => fastxor s s x) s)
      else crash "slice bounds out of range" := by
    intro l
    induction l with
    | nil => intro s; simp
    | cons a l ih =>
      intro s
      rw [List.foldlM_cons]
      change (part info st a >>= fun x => ok (fastxor s s x)) >>= _ = _
      cases hp : part info st a with
      | ok x =>
        simp only [ok_bind]
        rw [ih]
        simp [hp, valueOf]
      | err m =>
        exfalso
        unfold part sliceInt slice at hp
        split at hp
        · simp at hp
        · split at hp <;> simp at hp
      | crash m =>
        rw [if_neg (by
          intro hall
          obtain ⟨s', hs'⟩ := hall a (by simp)
          rw [hp] at hs'; simp at hs')]
        unfold part sliceInt slice at hp
        split at hp
        · simp at hp; simp [← hp]
        · split at hp
          · simp at hp
          · simp at hp; simp [← hp]
  exact key answers _

end Verif.Point
