import Verif.Lemmas.Several
import Verif.Lemmas.AmplifyBound

/-! # Lemmas about lying servers of the amplified LWE client -/

namespace Verif.Lwe
open Res Verif.Matrix Verif.Privacy Verif.Reaction Finset Verif.Lwe.Spec Verif.Several

theorem mapM_ofFn {α β : Type} {n : Nat} {f : α → Res β} {g : Fin n → α} {g' : Fin n → β} (h : ∀ k, f (g k) = ok (g' k)) :
    (List.ofFn g).mapM f = ok (List.ofFn g') := by
  induction n with
  | zero => simp only [List.ofFn_zero]; rfl
  | succ n ih =>
    rw [List.ofFn_succ, List.ofFn_succ, List.mapM_cons, h 0, ok_bind, ih (fun k => h k.succ), ok_bind]
    rfl

theorem scan_err {near : Nat → U32 → Bool} {want : Nat → U32} {m : String} : ∀ {n k : Nat} {l : List U32},
    scan near want n k l = err m → m = "REJECT"
  | 0, _, _, h => by cases h
  | _ + 1, _, [], h => by cases h
  | n + 1, k, x :: xs, h => by
    unfold scan at h
    split at h
    · exact scan_err h
    · cases h; rfl

theorem compare_err {near : Nat → U32 → Bool} {h a : Mat 32} {m : String} (e : Spec.compare near h a = err m) :
    m = "REJECT" := by
  unfold Spec.compare at e
  split at e
  · cases e
  split at e
  · cases e
  exact scan_err e

theorem repetition_compare (p : Params) (st : State 32) (a h : Mat 32) (near : Nat → U32 → Bool)
    (e : ending (reconstruct lwe32 p st a) = Spec.compare near h a) :
    ending (repetition p st a) = Spec.compare near h a := by
  unfold repetition
  cases hr : reconstruct lwe32 p st a with
  | ok b => rw [hr] at e; exact e
  | crash m => rw [hr] at e; exact e
  | err m =>
    rw [hr] at e
    have := compare_err e.symm
    rw [← e, this]

/-- One pass of the loop over the repetitions. -/
def repStep (p : Params) (sts : List (State 32)) (answers : List (Mat 32)) (i : Nat) (outputs : List U32) :
    Res (List U32) := do
  let a ← idx answers i
  let st ← idx sts i
  let b ← repetition p st a
  setAt outputs i b

/-- The loop over the repetitions, from the `k`-th on. -/
theorem loop_compareAll (p : Params) (B : U32) (sts : List (State 32)) (answers : List (Mat 32)) :
    ∀ (todo : List ((Nat → U32 → Bool) × Mat 32)) (k : Nat) (rest : List U32), sts.length = k + todo.length →
    rest.length = todo.length →
    (∀ (i : Nat) nh st m, todo[i]? = some nh → sts[k + i]? = some st → answers[k + i]? = some m →
      ending (repetition p st m) = Spec.compare nh.1 nh.2 m ∧ ∀ b, repetition p st m = ok b → b = B) →
    ending (forLoop todo.length (fun i => repStep p sts answers (k + i)) (List.replicate k B ++ rest)) = compareAll todo (answers.drop k) ∧
    ∀ outs, forLoop todo.length (fun i => repStep p sts answers (k + i)) (List.replicate k B ++ rest) = ok outs → outs = List.replicate (k + todo.length) B
  | [], k, rest, hl, hr, h => by
    have : rest = [] := List.eq_nil_of_length_eq_zero hr
    subst this
    refine ⟨by simp only [List.length_nil, forLoop_zero]; rfl, ?_⟩
    intro outs ho
    simp only [List.length_nil, forLoop_zero, ok.injEq, List.append_nil] at ho
    rw [← ho]; simp
  | nh :: todo, k, rest, hl, hr, h => by
    obtain ⟨y, rest, rfl⟩ : ∃ y ys, rest = y :: ys := by
      cases rest with
      | nil => simp at hr
      | cons y ys => exact ⟨y, ys, rfl⟩
    simp only [List.length_cons] at hl hr ⊢
    rw [forLoop_succ', Nat.add_zero]
    have hstep : repStep p sts answers k (List.replicate k B ++ y :: rest) = (do
      let a ← idx answers k
      let st ← idx sts k
      let b ← repetition p st a
      setAt (List.replicate k B ++ y :: rest) k b) := rfl
    rw [hstep]
    by_cases hk : k < answers.length
    · have e1 : answers[k]? = some answers[k] := List.getElem?_eq_getElem hk
      have hks : k < sts.length := by omega
      have e2 : sts[k]? = some sts[k] := List.getElem?_eq_getElem hks
      obtain ⟨c1, c2⟩ := h 0 nh _ _ rfl (by rw [Nat.add_zero]; exact e2) (by rw [Nat.add_zero]; exact e1)
      rw [List.drop_eq_getElem_cons hk]
      unfold compareAll
      have i1 : idx answers k = ok answers[k] := by unfold idx; rw [e1]
      have i2 : idx sts k = ok sts[k] := by unfold idx; rw [e2]
      rw [i1, ok_bind, i2, ok_bind, ← c1]
      cases hrep : repetition p sts[k] answers[k] with
      | err m => exact ⟨rfl, by rintro _ ⟨⟩⟩
      | crash m => exact ⟨rfl, by rintro _ ⟨⟩⟩
      | ok b =>
        have hb := c2 b hrep
        subst hb
        rw [ok_bind]
        have es : setAt (List.replicate k b ++ y :: rest) k b = ok (List.replicate (k + 1) b ++ rest) := by
          rw [setAt_of_lt (by simp)]
          congr 1
          rw [List.set_append_right _ _ (by simp), List.length_replicate, Nat.sub_self, List.set_cons_zero,
            List.replicate_succ', List.append_assoc]
          rfl
        rw [es, ok_bind]
        have := loop_compareAll p b sts answers todo (k + 1) rest (by omega) (by omega) (by
          intro i nh' st m t1 t2 t3
          refine h (i + 1) nh' st m (by simpa using t1) ?_ ?_
          · rw [← t2]; congr 1; omega
          · rw [← t3]; congr 1; omega)
        have e : (fun i => repStep p sts answers (k + (i + 1))) = fun i => repStep p sts answers (k + 1 + i) := by
          funext i
          rw [show k + (i + 1) = k + 1 + i by omega]
        rw [e]
        refine ⟨this.1, fun outs ho => ?_⟩
        rw [this.2 outs ho]
        congr 1
        omega
    · have e1 : idx answers k = crash "index out of range" := by
        unfold idx
        rw [List.getElem?_eq_none (by omega)]
      rw [List.drop_eq_nil_of_le (by omega), e1]
      exact ⟨rfl, by rintro _ ⟨⟩⟩

theorem decode_same (n : Nat) (B : U32) (hn : 0 < n) : Ecc.decode (List.replicate n B) = ok B := by
  obtain ⟨m, rfl⟩ : ∃ m, n = m + 1 := ⟨n - 1, by omega⟩
  rw [List.replicate_succ, Ecc.decode_eq, if_pos]
  rw [← List.replicate_succ, List.count_replicate_self, List.length_replicate]
  omega

/-- The whole decoding, when no repetition is misled. -/
theorem amplified_ending (p : Params) (B : U32) (sts : List (State 32)) (answers : List (Mat 32))
    (todo : List ((Nat → U32 → Bool) × Mat 32)) (hl : sts.length = todo.length) (hn : 0 < todo.length)
    (h : ∀ (i : Nat) nh st m, todo[i]? = some nh → sts[i]? = some st → answers[i]? = some m →
      ending (repetition p st m) = Spec.compare nh.1 nh.2 m ∧ ∀ b, repetition p st m = ok b → b = B) :
    ending (amplifyReconstruct p sts answers) = compareAll todo answers := by
  obtain ⟨l1, l2⟩ := loop_compareAll p B sts answers todo 0 (List.replicate sts.length 0) (by omega) (by simp [hl])
    (by intro i nh st m a1 a2 a3; rw [Nat.zero_add] at a2 a3; exact h i nh st m a1 a2 a3)
  simp only [Nat.zero_add, List.replicate_zero, List.nil_append, List.drop_zero] at l1 l2
  unfold amplifyReconstruct
  show ending (forLoop sts.length (repStep p sts answers) (List.replicate sts.length 0) >>= Ecc.decode) = _
  rw [ending_bind, ← l1, hl]
  rw [hl] at l2
  cases hloop : forLoop todo.length (repStep p sts answers) (List.replicate todo.length (0 : U32)) with
  | err m => rfl
  | crash m => rfl
  | ok outs =>
    rw [ok_bind, l2 outs hloop, decode_same _ _ hn]
    rfl

/-! ### Single retrievals -/

/-- The vector a repetition sends. -/
def sent (aesctr : List Byte → Nat → Byte) (p : Params) (row : Nat) (c : Coins) : Fin p.l → U32 :=
  shifted (secretVector lwe32 aesctr p id c.sBytes c.noise) row (wordAt 32 4 c.tBytes 0)

/-- Everything about the queries and the honest answers of the repetitions. -/
theorem amplified_queries (aesctr : List Byte → Nat → Byte) (p : Params) (hB : 0 < p.b.toNat) (db : Db 32) {n : Nat}
    (coins : Fin n → Coins) (hs : ∀ k, Setup lwe32 aesctr p db (coins k)) (row col : Nat) (hrow : row < db.numRows) :
    ∃ (st : Fin n → State 32) (h : Fin n → Mat 32),
      (∀ k, query lwe32 aesctr p db.digest (coins k) row col = ok (st k, ⟨1, p.l, List.ofFn (sent aesctr p row (coins k))⟩)) ∧
      (∀ k, answer lwe32 db ⟨1, p.l, List.ofFn (sent aesctr p row (coins k))⟩ = ok (h k)) ∧
      amplifyQuery aesctr p db.digest (List.ofFn coins) row col =
        ok (List.ofFn fun k => (st k, ⟨1, p.l, List.ofFn (sent aesctr p row (coins k))⟩)) := by
  have one : ∀ k, ∃ st h, query lwe32 aesctr p db.digest (coins k) row col =
        ok (st, ⟨1, p.l, List.ofFn (sent aesctr p row (coins k))⟩) ∧
      answer lwe32 db ⟨1, p.l, List.ofFn (sent aesctr p row (coins k))⟩ = ok h := by
    intro k
    have hS := hs k
    have hl : p.l = db.numRows := hS.params.l
    obtain ⟨f1, -, -⟩ := fits_1nl hS.fits
    have hqr := query_row aesctr p (good32 p.b hB) db.digest (coins k) row col (by rw [hl]; exact f1)
      (by rw [hl]; exact hS.noiseLen) hS.noise (by omega)
    obtain ⟨st, q, h, std, h1, h2, -⟩ :=
      honest_values aesctr p (good32 p.b hB) db hS.valid hS.params hS.digest hS.fits _ hS.noiseLen hS.noise row col hrow
    have hqr' := hqr
    rw [h1] at hqr'
    simp only [ok.injEq, Prod.mk.injEq] at hqr'
    obtain ⟨-, hq⟩ := hqr'
    rw [hq] at h2
    exact ⟨_, h, hqr, h2⟩
  choose st h h1 h2 using one
  exact ⟨st, h, h1, h2, mapM_ofFn h1⟩

theorem queryBytes_rows (aesctr : List Byte → Nat → Byte) (p : Params) (db : Db 32) {n : Nat}
    (coins : Fin n → Coins) (index : Nat) (hnc : 0 < db.numColumns) (st : Fin n → State 32)
    (h : amplifyQuery aesctr p db.digest (List.ofFn coins) (index / db.numColumns) (index % db.numColumns) =
      ok (List.ofFn fun k => (st k, ⟨1, p.l, List.ofFn (sent aesctr p (index / db.numColumns) (coins k))⟩))) :
    amplifyQueryBytes aesctr p db.numColumns db.digest (List.ofFn coins) index = (do
      let q ← rowsMessage (fun k => sent aesctr p (index / db.numColumns) (coins k))
      ok (List.ofFn st, q)) := by
  unfold amplifyQueryBytes rowsMessage
  rw [if_neg (by omega), h, ok_bind, List.map_ofFn, List.map_ofFn]
  rfl

/-- The client ends as if it compared the answers with the honest ones, unless the server has found one of the multipliers
or the noise of a repetition is too large. -/
theorem viewAll_eq (aesctr : List Byte → Nat → Byte) (p : Params) (hB : 0 < p.b.toNat) (db : Db 32) {n : Nat} (hn : 0 < n)
    (coins : Fin n → Coins) (hs : ∀ k, Setup lwe32 aesctr p db (coins k)) (F : List Byte → Res (List Byte)) (index : Nat)
    (hidx : index < db.numRows * db.numColumns)
    (hno : ¬ HitsOne db F ((2 * p.b.toNat - 2 : Nat) : Int) (range db.numColumns)
      (fun k => sent aesctr p (index / db.numColumns) (coins k)) (fun k => wordAt 32 4 (coins k).tBytes 0))
    (hov : ∀ k, ¬ Overflow (p.b.toNat - 1) (p.b.toNat - 1) id db (range db.numColumns) (coins k).noise) :
    viewAll aesctr p db F index (List.ofFn coins) =
      (rowsMessage (fun k => sent aesctr p (index / db.numColumns) (coins k)),
        expectedAll db F (fun k => sent aesctr p (index / db.numColumns) (coins k))
          (fun k => tolerance lwe32 p.b db (fun r => (coins k).noise.getD r 0))) := by
  have hnc : 0 < db.numColumns := by
    rcases Nat.eq_zero_or_pos db.numColumns with h | h
    · rw [h] at hidx; omega
    · exact h
  have hrow : index / db.numColumns < db.numRows := by
    rw [Nat.div_lt_iff_lt_mul hnc]; exact hidx
  have hj := Nat.mod_lt index hnc
  obtain ⟨st, h, h1, h2, h3⟩ := amplified_queries aesctr p hB db coins hs _ (index % db.numColumns) hrow
  unfold viewAll expectedAll
  rw [queryBytes_rows aesctr p db coins index hnc st h3]
  cases hmsg : rowsMessage (fun k => sent aesctr p (index / db.numColumns) (coins k)) with
  | err m => rfl
  | crash m => rfl
  | ok q =>
    simp only [ok_bind]
    congr 1
    rw [ending_bind]
    cases hF : F q with
    | err m => rfl
    | crash m => rfl
    | ok a =>
      rw [ok_bind, ok_bind]
      unfold amplifyReconstructBytes
      rw [ending_bind]
      cases ha : bytesToMatrices a with
      | err m => rfl
      | crash m => rfl
      | ok ms =>
        rw [ok_bind, ok_bind, mapM_ofFn h2, ok_bind]
        have hd : (((p.b.toNat : Int) - 1) + (p.b.toNat - 1)) = ((2 * p.b.toNat - 2 : Nat) : Int) := by omega
        refine amplified_ending p (BitVec.ofNat 32 (storedBit db.matrix (index / db.numColumns) (index % db.numColumns))) _ _ _
          (by simp) (by simpa using hn) ?_
        intro i nh st' m a1 a2 a3
        have hi : i < n := by
          by_contra hc
          rw [List.getElem?_eq_none (by simp; omega)] at a2
          cases a2
        have ez : ((List.ofFn fun k => tolerance lwe32 p.b db (fun r => (coins k).noise.getD r 0)).zip (List.ofFn h))[i]? =
            some (tolerance lwe32 p.b db (fun r => (coins ⟨i, hi⟩).noise.getD r 0), h ⟨i, hi⟩) := by
          rw [List.getElem?_zip_eq_some]
          constructor
          · rw [List.getElem?_ofFn, dif_pos hi]
          · rw [List.getElem?_ofFn, dif_pos hi]
        rw [ez] at a1
        obtain rfl := Option.some.inj a1
        rw [List.getElem?_ofFn, dif_pos hi] at a2
        obtain rfl := Option.some.inj a2
        have nohit : ∀ c, c < db.numColumns →
            ¬ (Within (((p.b.toNat : Int) - 1) + (p.b.toNat - 1))
                (m.entry 0 c - (h ⟨i, hi⟩).entry 0 c - coinT lwe32 (coins ⟨i, hi⟩)) ∨
              Within (((p.b.toNat : Int) - 1) + (p.b.toNat - 1))
                (m.entry 0 c - (h ⟨i, hi⟩).entry 0 c + coinT lwe32 (coins ⟨i, hi⟩))) := by
          intro c hc hw
          rw [hd] at hw
          exact hno ⟨⟨i, hi⟩, q, a, ms, m, h ⟨i, hi⟩, hmsg, hF, ha, a3, h2 _, c, mem_range.mpr hc, hw⟩
        constructor
        · exact repetition_compare p _ m _ _ (reconstruct_compare aesctr p (good32 p.b hB) db (coins ⟨i, hi⟩) (hs _) _ _
            hrow hj _ _ _ m (h1 _) (h2 _) nohit (hov _))
        · intro b hb
          by_contra hne
          have hr : reconstruct lwe32 p (st ⟨i, hi⟩) m = ok b := by
            unfold repetition at hb
            cases hr : reconstruct lwe32 p (st ⟨i, hi⟩) m with
            | ok b' => rw [hr] at hb; exact hb
            | err e => rw [hr] at hb; cases hb
            | crash e => rw [hr] at hb; cases hb
          refine nohit _ hj (integrity aesctr p (good32 p.b hB) db _ (hs ⟨i, hi⟩) _ _ hrow hj ?_ _ _ _ m b (h1 _) (h2 _) hr hne)
          by_contra hc
          exact hov ⟨i, hi⟩ ⟨_, mem_range.mpr hj, hc⟩

/-- A wrong bit is taken only if the server has found the first and most of the multipliers, or the noise is too large. -/
theorem wrong_hits (aesctr : List Byte → Nat → Byte) (p : Params) (hB : 0 < p.b.toNat) (db : Db 32) {r : Nat}
    (coins : Fin (2 * r + 1) → Coins) (hs : ∀ k, Setup lwe32 aesctr p db (coins k)) (F : List Byte → Res (List Byte))
    (index : Nat) (hidx : index < db.numRows * db.numColumns)
    (hov : ∀ k, ¬ Overflow (p.b.toNat - 1) (p.b.toNat - 1) id db {index % db.numColumns} (coins k).noise) (b : U32)
    (hb : amplifyRetrieve aesctr p db.numColumns db.digest (List.ofFn coins) index F = ok b)
    (hne : b ≠ BitVec.ofNat 32 (storedBit db.matrix (index / db.numColumns) (index % db.numColumns))) :
    HitsMost db F ((2 * p.b.toNat - 2 : Nat) : Int) {index % db.numColumns}
      (fun k => sent aesctr p (index / db.numColumns) (coins k)) (fun k => wordAt 32 4 (coins k).tBytes 0) := by
  have hnc : 0 < db.numColumns := by
    rcases Nat.eq_zero_or_pos db.numColumns with h | h
    · rw [h] at hidx; omega
    · exact h
  have hrow : index / db.numColumns < db.numRows := by
    rw [Nat.div_lt_iff_lt_mul hnc]; exact hidx
  have hj := Nat.mod_lt index hnc
  obtain ⟨st, h, h1, h2, h3⟩ := amplified_queries aesctr p hB db coins hs _ (index % db.numColumns) hrow
  unfold amplifyRetrieve at hb
  rw [queryBytes_rows aesctr p db coins index hnc st h3] at hb
  obtain ⟨⟨sts, q⟩, hq, hb⟩ := bind_eq_ok.mp hb
  obtain ⟨q', hmsg, hq'⟩ := bind_eq_ok.mp hq
  rw [ok.injEq, Prod.mk.injEq] at hq'
  obtain ⟨rfl, rfl⟩ := hq'
  obtain ⟨a, hF, hb⟩ := bind_eq_ok.mp hb
  unfold amplifyReconstructBytes at hb
  obtain ⟨ms, ha, hb⟩ := bind_eq_ok.mp hb
  obtain ⟨outs, o1, o2, o3, o4⟩ := amplify_ok p _ ms b hb
  rw [List.length_ofFn] at o1 o2
  have hd : (((p.b.toNat : Int) - 1) + (p.b.toNat - 1)) = ((2 * p.b.toNat - 2 : Nat) : Int) := by omega
  have key : ∀ k : Fin (2 * r + 1), outs.getD k.val 0 = b →
      HitsAt db F ((2 * p.b.toNat - 2 : Nat) : Int) {index % db.numColumns}
        (fun k => sent aesctr p (index / db.numColumns) (coins k)) k (wordAt 32 4 (coins k).tBytes 0) := by
    intro k hk
    have e4 : ms[k.val]? = some ms[k.val] := List.getElem?_eq_getElem (by omega)
    have hr := o3 k.val (st k) _ (by rw [List.getElem?_ofFn, dif_pos k.isLt]) e4
    rw [hk] at hr
    have hw := integrity aesctr p (good32 p.b hB) db _ (hs k) _ _ hrow hj (by
      by_contra hc
      exact hov k ⟨_, mem_singleton_self _, hc⟩) _ _ _ _ b (h1 k) (h2 k) hr hne
    rw [hd] at hw
    exact ⟨_, a, ms, _, h k, hmsg, hF, ha, e4, h2 k, _, mem_singleton_self _, hw⟩
  have houts : outs = List.ofFn (fun k : Fin (2 * r + 1) => outs.getD k.val 0) := by
    apply List.ext_getElem
    · simp [o1]
    · intro k h1 h2
      rw [List.getElem_ofFn]
      simp only [List.getD, List.getElem?_eq_getElem h1, Option.getD_some]
  have hmaj := Ecc.C35_decode_majority outs b o4
  unfold Ecc.Spec.Majority at hmaj
  have hhead : outs.getD 0 0 = b := by
    match outs, o4 with
    | [], o4 => rw [Ecc.decode_nil] at o4; cases o4
    | a :: l, o4 =>
      rw [Ecc.decode_eq] at o4
      split at o4
      · simpa using o4
      · cases o4
  rw [houts, count_ofFn] at hmaj
  rw [List.length_ofFn] at hmaj
  refine ⟨key 0 hhead, ?_⟩
  classical
  refine lt_of_lt_of_le (show r < (univ.filter (fun k : Fin (2 * r + 1) => outs.getD k.val 0 = b)).card by omega) ?_
  refine card_le_card fun k hk => ?_
  rw [mem_filter] at hk ⊢
  exact ⟨mem_univ _, key k hk.2⟩

/-! ### Probabilities -/

section
variable {Ω T : Type} [Fintype Ω] [Fintype T] {n l : Nat}

/-- Adding multipliers to uniform vectors changes nothing. -/
def shiftEquiv (t : T → U32) (i : Nat) (τ : Fin n → T) : (Fin n → Fin l → U32) ≃ (Fin n → Fin l → U32) where
  toFun v := shiftedAll t i v τ
  invFun v := fun k r => v k r - if (r : Nat) = i then t (τ k) else 0
  left_inv v := by
    funext k r
    simp only [shiftedAll, shifted]
    exact add_sub_cancel_right _ _
  right_inv v := by
    funext k r
    simp only [shiftedAll, shifted]
    exact sub_add_cancel _ _

theorem avg_swap {A B : Type} [Fintype A] [Fintype B] (f : A → B → ℚ) :
    avg (fun a => avg (fun b => f a b)) = avg (fun b => avg (fun a => f a b)) :=
  (avg_prod' (fun x : A × B => f x.1 x.2)).symm.trans (avg_prod _)

/-- From the vectors of the clients to uniform ones. -/
theorem hop_all [Nonempty Ω] (v : Ω → Fin l → U32) (i : Nat) (t : T → U32)
    (f : (Fin n → Fin l → U32) → (Fin n → T) → ℚ) :
    |avg (fun x : (Fin n → T) × (Fin n → Ω) => f (shiftedAll t i (fun k => v (x.2 k)) x.1) x.1) -
        avg (fun x : (Fin n → T) × (Fin n → Fin l → U32) => f x.2 x.1)| ≤
      lweGaps v (fun u => avg (fun τ => f (shiftedAll t i u τ) τ)) := by
  have h := several v (id : (Fin l → U32) → (Fin l → U32)) (fun u : Fin n → Fin l → U32 => avg (fun τ => f (shiftedAll t i u τ) τ))
  refine le_trans (le_of_eq ?_) h
  unfold advantage
  congr 1
  congr 1
  · rw [avg_prod]
  · rw [avg_prod']
    refine Eq.trans ?_ (avg_swap (fun (τ : Fin n → T) (u : Fin n → Fin l → U32) => f (shiftedAll t i u τ) τ))
    refine avg_congr fun τ => ?_
    exact (avg_equiv (shiftEquiv t i τ) (fun u => f u τ)).symm

/-- The same with what is revealed of the noise. -/
theorem hop_all_hint [Nonempty Ω] (v : Ω → Fin l → U32) (near : Ω → Nat → U32 → Bool) (i : Nat) (t : T → U32)
    (f : (Fin n → Fin l → U32) → (Fin n → Nat → U32 → Bool) → ℚ) :
    |avg (fun x : (Fin n → T) × (Fin n → Ω) => f (shiftedAll t i (fun k => v (x.2 k)) x.1) (fun k => near (x.2 k))) -
        avg (fun x : (Fin n → T) × (Fin n → (Fin l → U32) × Ω) => f (fun k => (x.2 k).1) (fun k => near (x.2 k).2))| ≤
      hintGaps v near (fun u => avg (fun τ : Fin n → T => f (shiftedAll t i (fun k => (u k).1) τ) (fun k => (u k).2))) := by
  have h := several (fun ω => (v ω, near ω)) (fun x : (Fin l → U32) × Ω => (x.1, near x.2))
    (fun u : Fin n → (Fin l → U32) × (Nat → U32 → Bool) =>
      avg (fun τ : Fin n → T => f (shiftedAll t i (fun k => (u k).1) τ) (fun k => (u k).2)))
  refine le_trans (le_of_eq ?_) h
  unfold advantage
  congr 1
  congr 1
  · rw [avg_prod]
  · rw [avg_prod']
    refine Eq.trans ?_ (avg_swap (fun (τ : Fin n → T) (u : Fin n → (Fin l → U32) × Ω) =>
      f (shiftedAll t i (fun k => (u k).1) τ) (fun k => near (u k).2)))
    refine avg_congr fun τ => ?_
    let e : (Fin n → (Fin l → U32) × Ω) ≃ (Fin n → (Fin l → U32) × Ω) :=
      { toFun := fun u k => (shifted (u k).1 i (t (τ k)), (u k).2)
        invFun := fun u k => (fun r => (u k).1 r - if (r : Nat) = i then t (τ k) else 0, (u k).2)
        left_inv := by
          intro u
          funext k
          ext1
          · funext r; exact add_sub_cancel_right _ _
          · rfl
        right_inv := by
          intro u
          funext k
          ext1
          · funext r; exact sub_add_cancel _ _
          · rfl }
    exact (avg_equiv e (fun u => f (fun k => (u k).1) (fun k => near (u k).2))).symm

/-- One of several draws. -/
theorem avg_one [Nonempty T] (k : Fin n) (g : T → ℚ) : avg (fun τ : Fin n → T => g (τ k)) = avg g := by
  rw [← resample k]
  refine avg_congr fun x => ?_
  simp only [Function.update_self]
  exact avg_const _

/-- One of several draws, beside others. -/
theorem avg_one_of {A : Type} [Fintype A] [Nonempty A] [Nonempty T] (k : Fin n) (g : T → ℚ) :
    avg (fun x : A × (Fin n → T) => g (x.2 k)) = avg g := by
  rw [avg_prod', ← avg_one k g]
  exact avg_const (Ω := A) (avg (fun τ : Fin n → T => g (τ k)))

/-- The chance of finding the multiplier of one repetition, given the message. -/
theorem hitsAt_uniform (db : Db 32) (F : List Byte → Res (List Byte)) (d : Nat) (ks : Finset Nat) (t : T → U32) (ε : ℚ)
    (hε : Spread t ε) (v : Fin n → Fin l → U32) (k : Fin n) :
    avg (fun τ : T => indicator (HitsAt db F d ks v k (t τ))) ≤ ks.card * (2 * (2 * d + 1) * ε) := by
  have hε0 : 0 ≤ ε := le_trans (avg_nonneg (fun τ => indicator_nonneg _)) (hε 0)
  by_cases hF : ∃ q a ms m h, rowsMessage v = ok q ∧ F q = ok a ∧ bytesToMatrices a = ok ms ∧ ms[k.val]? = some m ∧
    answer lwe32 db ⟨1, l, List.ofFn (v k)⟩ = ok h
  · obtain ⟨q, a, ms, m, h, h1, h2, h3, h4, h5⟩ := hF
    have key : ∀ τ : T, indicator (HitsAt db F d ks v k (t τ)) ≤
        ∑ c ∈ ks, indicator (Within (d : Int) (m.entry 0 c - h.entry 0 c - t τ) ∨
          Within (d : Int) (m.entry 0 c - h.entry 0 c + t τ)) := by
      intro τ
      refine le_trans (indicator_mono ?_) (indicator_exists ks (fun c =>
        Within (d : Int) (m.entry 0 c - h.entry 0 c - t τ) ∨ Within (d : Int) (m.entry 0 c - h.entry 0 c + t τ)))
      rintro ⟨q', a', ms', m', h', e1, e2, e3, e4, e5, hk⟩
      rw [h1, ok.injEq] at e1
      subst e1
      rw [h2, ok.injEq] at e2
      subst e2
      rw [h3, ok.injEq] at e3
      subst e3
      rw [h4, Option.some.injEq] at e4
      subst e4
      rw [h5, ok.injEq] at e5
      subst e5
      exact hk
    refine le_trans (avg_mono key) ?_
    rw [avg_sum]
    refine le_trans (Finset.sum_le_card_nsmul _ _ _ (fun c _ => near_chance t ε hε d _)) ?_
    rw [nsmul_eq_mul]
  · rw [show (fun τ : T => indicator (HitsAt db F d ks v k (t τ))) = fun _ => (0 : ℚ) from by
      funext τ
      exact indicator_false (fun ⟨q, a, ms, m, h, h1, h2, h3, h4, h5, _⟩ => hF ⟨q, a, ms, m, h, h1, h2, h3, h4, h5⟩)]
    unfold avg
    simp only [sum_const_zero, zero_div]
    positivity

/-- The chance of finding one of the multipliers added to uniform vectors. -/
theorem hitsOne_uniform [Nonempty T] (db : Db 32) (F : List Byte → Res (List Byte)) (d : Nat) (ks : Finset Nat) (t : T → U32)
    (ε : ℚ) (hε : Spread t ε) :
    avg (fun x : (Fin n → T) × (Fin n → Fin l → U32) => indicator (HitsOne db F d ks x.2 (fun k => t (x.1 k)))) ≤
      n * (ks.card * (2 * (2 * d + 1) * ε)) := by
  rw [avg_prod]
  apply avg_le
  intro v
  have key : ∀ τ : Fin n → T, indicator (HitsOne db F d ks v (fun k => t (τ k))) ≤
      ∑ k ∈ univ, indicator (HitsAt db F d ks v k (t (τ k))) := by
    intro τ
    refine le_trans (indicator_mono ?_) (indicator_exists univ (fun k => HitsAt db F d ks v k (t (τ k))))
    rintro ⟨k, hk⟩
    exact ⟨k, mem_univ _, hk⟩
  refine le_trans (avg_mono key) ?_
  rw [avg_sum]
  refine le_trans (Finset.sum_le_card_nsmul univ _ (ks.card * (2 * (2 * d + 1) * ε)) (fun k _ => ?_)) ?_
  · rw [avg_one k (fun τ => indicator (HitsAt db F d ks v k (t τ)))]
    exact hitsAt_uniform db F d ks t ε hε v k
  · rw [card_univ, Fintype.card_fin, nsmul_eq_mul]

/-- The chance of finding the first and most of the multipliers added to uniform vectors. -/
theorem hitsMost_uniform [Nonempty T] {r : Nat} (db : Db 32) (F : List Byte → Res (List Byte)) (d : Nat) (ks : Finset Nat)
    (t : T → U32) (ε : ℚ) (hε : Spread t ε) :
    avg (fun x : (Fin (2 * r + 1) → T) × (Fin (2 * r + 1) → Fin l → U32) =>
      indicator (HitsMost db F d ks x.2 (fun k => t (x.1 k)))) ≤
      (2 * r).choose r * (ks.card * (2 * (2 * d + 1) * ε)) ^ (r + 1) := by
  classical
  rw [avg_prod]
  apply avg_le
  intro v
  let bad : Fin (2 * r + 1) → Finset T := fun k => univ.filter (fun τ => HitsAt db F d ks v k (t τ))
  have hT : (0 : ℚ) < Fintype.card T := by exact_mod_cast Fintype.card_pos
  have hbad : ∀ k, ((bad k).card : ℚ) / Fintype.card T ≤ ks.card * (2 * (2 * d + 1) * ε) := by
    intro k
    refine le_trans (le_of_eq ?_) (hitsAt_uniform db F d ks t ε hε v k)
    unfold avg
    congr 1
    rw [card_filter]
    push_cast
    refine sum_congr rfl fun τ _ => ?_
    unfold indicator
    congr
  obtain ⟨k0, -, hk0⟩ := exists_max_image univ (fun k => (bad k).card) ⟨0, mem_univ _⟩
  have hle := Votes.card_outvoted_le bad (bad k0).card (fun k => hk0 k (mem_univ _))
  have e : avg (fun τ : Fin (2 * r + 1) → T => indicator (HitsMost db F d ks v (fun k => t (τ k)))) =
      ((univ.filter (Votes.Outvoted bad)).card : ℚ) / Fintype.card T ^ (2 * r + 1) := by
    unfold avg
    congr 1
    · rw [card_filter]
      push_cast
      refine sum_congr rfl fun τ _ => ?_
      unfold indicator
      refine if_congr ?_ rfl rfl
      unfold HitsMost Votes.Outvoted
      simp only [bad, mem_filter, mem_univ, true_and]
    · rw [Fintype.card_fun, Fintype.card_fin]
      push_cast
      rfl
  rw [e, div_le_iff₀ (by positivity)]
  calc ((univ.filter (Votes.Outvoted bad)).card : ℚ) ≤
      ((2 * r).choose r * ((bad k0).card ^ (r + 1) * Fintype.card T ^ r) : Nat) := by exact_mod_cast hle
    _ = (2 * r).choose r * (((bad k0).card : ℚ) / Fintype.card T) ^ (r + 1) * Fintype.card T ^ (2 * r + 1) := by
      rw [div_pow]
      push_cast
      field_simp
      ring
    _ ≤ _ := by
      apply mul_le_mul_of_nonneg_right _ (by positivity)
      apply mul_le_mul_of_nonneg_left _ (by positivity)
      exact pow_le_pow_left₀ (div_nonneg (Nat.cast_nonneg _) hT.le) (hbad k0) _

end

end Verif.Lwe
