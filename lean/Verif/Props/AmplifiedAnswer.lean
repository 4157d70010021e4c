import Verif.Lemmas.AmplifyBound
import Verif.Props.SingleClient

/-! # C144 for the amplified LWE server: what it does with any query (lib/server/amplify.go) -/

namespace Verif.Lwe
open Res Verif.Matrix Verif.Utils Verif.Lwe.Spec

/-- The answer to a piece of eight bytes or more. -/
theorem answer_piece (db : Db 32) (b : List Byte) (h : 8 ≤ b.length) :
    answerBytes lwe32 db b = (binaryMul (matOf b) db.matrix >>= fun c => ok (enc c)) := by
  unfold answerBytes
  show (bytesToMatrix b >>= fun m => binaryMul m db.matrix >>= fun a => matrixToBytes a) = _
  rw [read32 b h, ok_bind]
  simp only [matrixToBytes_eq]
  rfl

/-- The dimensions of a product. -/
theorem product_shape {w v : Nat} (op : BitVec w → BitVec v → BitVec w) (a : Mat w) (b : Mat v) (c : Mat w)
    (h : mulGo op a b = ok c) : c.rows = a.rows ∧ c.cols = b.cols ∧ c.data.length = a.rows * b.cols := by
  unfold mulGo at h
  split at h
  · cases h
  · simp only [bind_eq_ok] at h
    obtain ⟨-, -, -, -, -, -, d, hd, hc⟩ := h
    cases hc
    refine ⟨rfl, rfl, ?_⟩
    have hz : (new w a.rows b.cols).data.length = a.rows * b.cols := by simp [new]
    show d.length = _
    rw [← hz]
    refine forLoop_inv_ok (P := fun _ t => t.length = (new w a.rows b.cols).data.length) rfl (fun i t t' _ h1 h2 => ?_) hd
    refine forLoop_inv_ok (P := fun _ t => t.length = (new w a.rows b.cols).data.length) h1 (fun k t t' _ h1 h2 => ?_) h2
    refine forLoop_inv_ok (P := fun _ t => t.length = (new w a.rows b.cols).data.length) h1 (fun j t t' _ h1 h2 => ?_) h2
    unfold cBody at h2
    simp only [bind_eq_ok] at h2
    obtain ⟨_, -, _, -, _, -, _, -, _, -, _, -, hw⟩ := h2
    unfold cWrite at hw
    split at hw
    · cases hw
      simpa using h1
    · cases hw

/-- A list of computations ends with the first that panics. -/
theorem mapM_first {α β : Type} (f : α → Res β) : ∀ (l : List α) (k : Nat) (x : α) (m : String), l[k]? = some x → f x = crash m →
    (∀ (i : Nat) (y : α), i < k → l[i]? = some y → ∃ z, f y = ok z) → l.mapM f = crash m
  | [], k, x, m, hk, _, _ => by cases hk
  | y :: l, 0, x, m, hk, hx, _ => by
    simp only [List.getElem?_cons_zero, Option.some.injEq] at hk
    rw [List.mapM_cons, hk, hx, crash_bind]
  | y :: l, k + 1, x, m, hk, hx, hi => by
    obtain ⟨z, hz⟩ := hi 0 y (by omega) rfl
    rw [List.mapM_cons, hz, ok_bind, mapM_first f l k x m (by simpa using hk) hx
      (fun i y h1 h2 => hi (i + 1) y (by omega) (by simpa using h2)), crash_bind]

/-- A list of computations that all succeed. -/
theorem mapM_all {α β : Type} (f : α → Res β) : ∀ (l : List α), (∀ x ∈ l, ∃ y, f x = ok y) →
    ∃ r, l.mapM f = ok r
  | [], _ => ⟨[], rfl⟩
  | x :: l, h => by
    obtain ⟨y, hy⟩ := h x (by simp)
    obtain ⟨r, hr⟩ := mapM_all f l (fun x hx => h x (by simp [hx]))
    exact ⟨y :: r, by rw [List.mapM_cons, hy, ok_bind, hr, ok_bind]; rfl⟩

/-- Matrices of different dimensions are not encoded together. -/
theorem encode_mismatch (m0 : Mat 32) (ms : List (Mat 32)) (hl : ∀ m ∈ ms, m.rows = m0.rows → m.cols = m0.cols →
    m.data.length = m0.data.length) (hne : ∃ m ∈ ms, ¬ (m.rows = m0.rows ∧ m.cols = m0.cols)) :
    (matricesToBytes (m0 :: ms)).isCrash := by
  unfold matricesToBytes
  rw [idx_cons_zero, ok_bind, matrixToBytes_eq, ok_bind]
  dsimp only
  suffices main : ∀ out : List Byte, out.length = 4 + (enc m0).length * (m0 :: ms).length →
      (forLoop ((m0 :: ms).length - 1) (fun i out => do
        let m ← idx (m0 :: ms) (i + 1)
        if m0.rows ≠ m.rows ∨ m0.cols ≠ m.cols then crash "dimension mismatch" else
        let c ← matrixToBytes m
        copyAt out (4 + (enc m0).length * (i + 1)) c) out).isCrash by
    rw [copyAt_of_le (by simp), ok_bind, copyAt_of_le (by
      simp only [List.length_append, List.length_take, List.length_drop, List.length_replicate, putBE32_length, List.length_cons]
      rw [Nat.mul_succ]
      omega), ok_bind]
    refine main _ ?_
    simp only [List.length_append, List.length_take, List.length_drop, List.length_replicate, putBE32_length, List.length_cons]
    rw [Nat.mul_succ]
    omega
  intro out hout
  obtain ⟨m, hm, hbad⟩ := hne
  obtain ⟨k0, hk0, rfl⟩ := List.getElem_of_mem hm
  have hex : ∃ k, ∃ h : k < ms.length, ¬ (ms[k].rows = m0.rows ∧ ms[k].cols = m0.cols) := ⟨k0, hk0, hbad⟩
  classical
  obtain ⟨hkl, hk⟩ := Nat.find_spec hex
  have hmin := fun i (hi : i < Nat.find hex) => Nat.find_min hex hi
  generalize Nat.find hex = k at hkl hk hmin
  have hidx : ∀ i (hi : i < ms.length), idx (m0 :: ms) (i + 1) = ok ms[i] := by
    intro i hi
    rw [idx_of_lt (by simpa using hi)]
    simp
  obtain ⟨t, -, -, hc⟩ := loop_first (n := (m0 :: ms).length - 1) (m := k) (body := fun i out => do
      let m ← idx (m0 :: ms) (i + 1)
      if m0.rows ≠ m.rows ∨ m0.cols ≠ m.cols then crash "dimension mismatch" else
      let c ← matrixToBytes m
      copyAt out (4 + (enc m0).length * (i + 1)) c) (by simpa using hkl)
    (fun _ t => t.length = 4 + (enc m0).length * (m0 :: ms).length) hout (by
      intro i t hi ht
      have hil : i < ms.length := by omega
      have hgood : ms[i].rows = m0.rows ∧ ms[i].cols = m0.cols := by
        by_contra hn
        exact hmin i hi ⟨hil, hn⟩
      have hlen : (enc ms[i]).length = (enc m0).length := by
        rw [enc_length, enc_length, hl _ (List.getElem_mem hil) hgood.1 hgood.2]
      have hle : 4 + (enc m0).length * (i + 1) + (enc ms[i]).length ≤ t.length := by
        rw [ht, hlen, List.length_cons]
        have : (enc m0).length * (i + 1 + 1) ≤ (enc m0).length * (ms.length + 1) := Nat.mul_le_mul_left _ (by omega)
        rw [Nat.mul_succ] at this
        omega
      refine ⟨_, by
        rw [hidx i hil, ok_bind, if_neg (by rintro (h | h); exacts [h hgood.1.symm, h hgood.2.symm]), matrixToBytes_eq, ok_bind,
          copyAt_of_le hle], ?_⟩
      simp only [List.length_append, List.length_take, List.length_drop]
      omega)
  rw [hc "dimension mismatch" (by
    rw [hidx k hkl, ok_bind, if_pos (by
      by_contra hn
      simp only [not_or, not_not] at hn
      exact hk ⟨hn.1.symm, hn.2.symm⟩)])]
  trivial

/-- C144 for the amplified LWE server, with C144_lwe for its pieces: a query that cannot be cut into pieces, or into none, makes it
panic; the first piece that makes the plain server panic (or is undefined) does the same here; if all pieces are answered, the answers
are concatenated after the length of the first, unless pieces announce different numbers of rows, which makes it panic. -/
theorem C144_amplified (db : Db 32) (hv : db.Valid) (hR : db.numRows < 2 ^ 31) (hC : db.numColumns < 2 ^ 31) (q : List Byte)
    (hl : q.length < 2 ^ 32) :
    (¬ Splits q ∨ pieces q = 0 → (amplifyAnswerBytes db q).isCrash) ∧
    (Splits q → ∀ k m, k < pieces q → (∀ i, i < k → ∃ a, answerBytes lwe32 db (pieceOf q i) = ok a) →
      answerBytes lwe32 db (pieceOf q k) = crash m → amplifyAnswerBytes db q = crash m) ∧
    (Splits q → 0 < pieces q → ∀ as : List (List Byte), as.length = pieces q →
      (∀ i a, as[i]? = some a → answerBytes lwe32 db (pieceOf q i) = ok a) →
      ((∀ i, i < pieces q → announcedRows (pieceOf q i) = announcedRows (pieceOf q 0)) →
        ∃ h, amplifyAnswerBytes db q = ok (h ++ as.flatten) ∧ h.length = 4 ∧ number h 0 = (as.headD []).length % 2 ^ 32) ∧
      (¬ (∀ i, i < pieces q → announcedRows (pieceOf q i) = announcedRows (pieceOf q 0)) → (amplifyAnswerBytes db q).isCrash)) ∧
    (Splits q → ∀ i, i < pieces q → (∃ a, answerBytes lwe32 db (pieceOf q i) = ok a) ∨
      ∃ m, answerBytes lwe32 db (pieceOf q i) = crash m) := by
  obtain ⟨s1, s2⟩ := split_pieces q hl
  have h8 : Splits q → ∀ i, i < pieces q → 8 ≤ (pieceOf q i).length := by
    intro hs i hi
    rw [(pieceOf_length q i hs.1 hi).2]
    have := hs.2.2
    omega
  have hrun : Splits q → amplifyAnswerBytes db q =
      (((List.range (pieces q)).map (fun i => matOf (pieceOf q i))).mapM (fun m => binaryMul m db.matrix) >>= matricesToBytes) := by
    intro hs
    unfold amplifyAnswerBytes
    rw [s2 hs, ok_bind]
    rfl
  have hget : ∀ i, i < pieces q → ((List.range (pieces q)).map (fun i => matOf (pieceOf q i)))[i]? = some (matOf (pieceOf q i)) := by
    intro i hi
    simp [hi]
  refine ⟨?_, ?_, ?_, ?_⟩
  · intro h
    by_cases hs : Splits q
    · have h0 : pieces q = 0 := h.resolve_left (not_not.mpr hs)
      rw [hrun hs, h0]
      show (matricesToBytes []).isCrash
      trivial
    · unfold amplifyAnswerBytes
      rw [isCrash_bind]
      exact Or.inl (s1 hs)
  · intro hs k m hk hpre hbad
    rw [answer_piece db _ (h8 hs k hk)] at hbad
    have hb : binaryMul (matOf (pieceOf q k)) db.matrix = crash m := by
      cases hx : binaryMul (matOf (pieceOf q k)) db.matrix with
      | ok c => rw [hx, ok_bind] at hbad; cases hbad
      | err e => rw [hx, err_bind] at hbad; cases hbad
      | crash e => rw [hx, crash_bind] at hbad; rw [Res.crash.inj hbad]
    rw [hrun hs, mapM_first _ _ k _ m (hget k hk) hb, crash_bind]
    intro i y hi hy
    rw [hget i (by omega)] at hy
    cases hy
    obtain ⟨a, ha⟩ := hpre i hi
    rw [answer_piece db _ (h8 hs i (by omega)), bind_eq_ok] at ha
    obtain ⟨c, hc, -⟩ := ha
    exact ⟨c, hc⟩
  · intro hs hpos as hlen has
    obtain ⟨cs, hcs⟩ := mapM_all (fun m => binaryMul m db.matrix)
      ((List.range (pieces q)).map (fun i => matOf (pieceOf q i))) (by
        intro x hx
        obtain ⟨i, hi, rfl⟩ := List.mem_map.mp hx
        have hi' : i < pieces q := by simpa using hi
        have ha := has i as[i] (by simp [hlen, hi'])
        rw [answer_piece db _ (h8 hs i hi'), bind_eq_ok] at ha
        obtain ⟨c, hc, -⟩ := ha
        exact ⟨c, hc⟩)
    obtain ⟨g1, g2⟩ := mapM_get hcs
    have hcl : cs.length = pieces q := by rw [g1]; simp
    have hc : ∀ i (hi : i < cs.length), binaryMul (matOf (pieceOf q i)) db.matrix = ok cs[i] :=
      fun i hi => g2 i _ _ (hget i (by omega)) (by simp [hi])
    have hshape : ∀ i (hi : i < cs.length), cs[i].rows = announcedRows (pieceOf q i) ∧ cs[i].cols = db.matrix.cols ∧
        cs[i].data.length = announcedRows (pieceOf q i) * db.matrix.cols :=
      fun i hi => product_shape andOp _ _ _ (hc i hi)
    have henc : as = cs.map enc := by
      refine List.ext_getElem (by simp [hlen, hcl]) fun i h1 h2 => ?_
      have ha := has i as[i] (by simp [h1])
      have hi : i < cs.length := by simpa using h2
      rw [answer_piece db _ (h8 hs i (by omega)), hc i hi, ok_bind] at ha
      rw [← Res.ok.inj ha]
      simp
    rw [hrun hs, hcs, ok_bind]
    obtain ⟨c0, ct, rfl⟩ : ∃ c0 ct, cs = c0 :: ct := by
      cases cs with
      | nil => simp at hcl; omega
      | cons c0 ct => exact ⟨c0, ct, rfl⟩
    have hs0 := hshape 0 (by simp)
    simp only [List.getElem_cons_zero] at hs0
    have htail : ∀ m ∈ ct, ∃ i, i < pieces q ∧ m.rows = announcedRows (pieceOf q i) ∧ m.cols = db.matrix.cols ∧
        m.data.length = announcedRows (pieceOf q i) * db.matrix.cols := by
      intro m hm
      obtain ⟨i, hi, rfl⟩ := List.getElem_of_mem hm
      have := hshape (i + 1) (by simpa using hi)
      simp only [List.getElem_cons_succ] at this
      refine ⟨i + 1, ?_, this⟩
      rw [← hcl]
      simpa using hi
    refine ⟨fun hall => ?_, fun hne => ?_⟩
    · rw [matricesToBytes_eq c0 ct (fun m hm => by
        obtain ⟨i, hi, e1, e2, e3⟩ := htail m hm
        rw [e1, e2, e3, hall i hi, hs0.1, hs0.2.1, hs0.2.2]
        exact ⟨rfl, rfl, rfl⟩)]
      refine ⟨putBE32 (BitVec.ofNat 32 (enc c0).length), ?_, by simp, ?_⟩
      · rw [henc, encAll, List.flatMap_def]
      · rw [henc]
        show number _ 0 = (enc c0).length % 2 ^ 32
        have h1 := read_number (putBE32 (BitVec.ofNat 32 (enc c0).length)) (by simp)
        rw [getBE32_put'] at h1
        have h2 := congrArg BitVec.toNat (Res.ok.inj h1)
        rw [toNat_number, BitVec.toNat_ofNat] at h2
        exact h2.symm
    · refine encode_mismatch c0 ct (fun m hm h1 h2 => ?_) ?_
      · obtain ⟨i, hi, e1, e2, e3⟩ := htail m hm
        rw [e3, hs0.2.2, ← e1, h1, hs0.1]
      · by_contra hn
        refine hne fun i hi => ?_
        have hi' : i < (c0 :: ct).length := by omega
        have e := (hshape i hi').1
        rw [← e, ← hs0.1]
        cases i with
        | zero => rfl
        | succ i =>
          simp only [List.getElem_cons_succ]
          by_contra hr
          exact hn ⟨ct[i]'(by simpa using hi'), List.getElem_mem _, fun h => hr h.1⟩
  · intro hs i hi
    have hcr : (answerBytes lwe32 db (pieceOf q i)).isCrash → ∃ m, answerBytes lwe32 db (pieceOf q i) = crash m := by
      intro h
      cases hx : answerBytes lwe32 db (pieceOf q i) with
      | ok a => rw [hx] at h; exact absurd h (by simp [isCrash])
      | err e => rw [hx] at h; exact absurd h (by simp [isCrash])
      | crash m => exact ⟨m, rfl⟩
    have hun : Undefined (answerBytes lwe32 db (pieceOf q i)) → ∃ m, answerBytes lwe32 db (pieceOf q i) = crash m := by
      rintro (h | h | h) <;> exact ⟨_, h⟩
    obtain ⟨c1, c2⟩ := C144_lwe db hv hR hC (pieceOf q i)
    by_cases hcf : Conforms db.numRows db.numColumns (pieceOf q i) ∧ 0 < carried format32 (pieceOf q i)
    · obtain ⟨d1, d2⟩ := c2 hcf.1 hcf.2
      by_cases hbig : 2 ^ 31 ≤ announcedRows (pieceOf q i)
      · obtain ⟨a, ha, -⟩ := d1 hbig
        exact Or.inl ⟨a, ha⟩
      · obtain ⟨e1, e2⟩ := d2 (by omega)
        by_cases hix : Indexable (announcedRows (pieceOf q i)) db.numRows db.numColumns ∧
            announcedRows (pieceOf q i) * db.numRows ≤ carried format32 (pieceOf q i)
        · obtain ⟨a, ha, -⟩ := e2 hix.1 hix.2
          exact Or.inl ⟨a, ha⟩
        · exact Or.inr (hun (e1 hix))
    · exact Or.inr (hcr (c1 hcf).1)

-- Two queries of a row for the table with two rows; a query of one and one of two rows; no piece; a second piece without words.
example : Splits [0, 0, 0, 16, 0, 0, 0, 1, 0, 0, 0, 2, 0, 0, 0, 7, 0, 0, 1, 1, 0, 0, 0, 1, 0, 0, 0, 2, 0, 0, 0, 3, 0, 0, 0, 1] ∧
    pieces [0, 0, 0, 16, 0, 0, 0, 1, 0, 0, 0, 2, 0, 0, 0, 7, 0, 0, 1, 1, 0, 0, 0, 1, 0, 0, 0, 2, 0, 0, 0, 3, 0, 0, 0, 1] = 2 :=
  ⟨⟨by decide, by decide +kernel, Or.inl (by decide +kernel)⟩, by decide +kernel⟩
example : amplifyAnswerBytes (exTable 32)
    [0, 0, 0, 16, 0, 0, 0, 1, 0, 0, 0, 2, 0, 0, 0, 7, 0, 0, 1, 1, 0, 0, 0, 1, 0, 0, 0, 2, 0, 0, 0, 3, 0, 0, 0, 1] =
    ok [0, 0, 0, 12, 0, 0, 0, 1, 0, 0, 0, 1, 0, 0, 1, 8, 0, 0, 0, 1, 0, 0, 0, 1, 0, 0, 0, 4] := by decide +kernel
example : amplifyAnswerBytes (exTable 32) ([0, 0, 0, 24] ++
    [0, 0, 0, 1, 0, 0, 0, 2, 0, 0, 0, 7, 0, 0, 1, 1, 0, 0, 0, 7, 0, 0, 1, 1] ++
    [0, 0, 0, 2, 0, 0, 0, 2, 0, 0, 0, 7, 0, 0, 1, 1, 0, 0, 0, 7, 0, 0, 1, 1]) = crash "dimension mismatch" := by decide +kernel
example : (amplifyAnswerBytes (exTable 32) [0, 0, 0, 16, 0, 0, 0, 1]).isCrash := by decide +kernel
example : amplifyAnswerBytes (exTable 32) ([0, 0, 0, 12] ++ [0, 0, 0, 1, 0, 0, 0, 2, 0, 0, 0, 7]) =
    answerBytes lwe32 (exTable 32) [0, 0, 0, 1, 0, 0, 0, 2, 0, 0, 0, 7] := by decide +kernel

end Verif.Lwe
