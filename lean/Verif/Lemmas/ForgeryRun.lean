import Verif.Lemmas.ForgeryCount
import Verif.Lemmas.PredicateRun

/-! # Honest answers as the forging server can compute them -/

namespace Verif.Forge
open Res Verif.Field Verif.Field.Spec Verif.Fss Verif.Fss.Spec Verif.Privacy Verif.Predicate Verif.Predicate.Spec Finset
set_option linter.constructorNameAsVariable false

theorem shareOf_le (sn : Byte) (x c : U32) (t : Byte) : (shareOf sn x c t).toNat ≤ p := by
  have h := Nat.mod_lt (x + t.setWidth 32 * c).toNat p_pos
  have e : ((x + t.setWidth 32 * c) % modP).toNat = (x + t.setWidth 32 * c).toNat % p := by
    rw [BitVec.toNat_umod, modP_toNat, p_val]
  unfold shareOf
  simp only
  split
  · omega
  · rw [BitVec.toNat_sub, modP_toNat, e]
    rw [p_val] at *
    omega

theorem evalOut_share {sn : Byte} {tmp fcw out : List U32} (h0 : tmp.length = out.length) (h1 : fcw.length = out.length)
    {t : Byte} : evalOut sn tmp fcw t out
      = ok ((List.range out.length).map (fun j => shareOf sn (tmp.getD j 0) (fcw.getD j 0) t)) := by
  rw [evalOut_eq h0 h1]
  rfl

/-- The shape of a key for five components. -/
structure KeyOk (k : Key) (n : Nat) : Prop where
  seed : k.sInit.length = 16
  bit : Bit k.tInit
  cws : k.cw.length = n
  cw18 : ∀ cw ∈ k.cw, cw.length = 18
  fcw : k.finalCW.length = 5

/-- The share of a record, without any assumption on the values derived from the last seed. -/
def realShare (E : Cipher) (e : U32) (sn : Byte) (k : Key) (x : List Bool) (j : Nat) : U32 :=
  shareOf sn ((elems e (words E (endOf E k (clear256 x)).1)).getD j 0) (k.finalCW.getD j 0) (endOf E k (clear256 x)).2

theorem eval_five {env : Env} (hE : BlockCipher env.E) {e : U32} (he : resample env.fresh env.fuel 0 modP = ok e)
    {ocb : List Byte} (ho : BufferReady 5 ocb) {k : Key} {x : List Bool} (hk : KeyOk k x.length) (sn : Byte)
    {out : List U32} (hout : out.length = 5) :
    ∃ ocb', evaluatePF env ocb sn k x out = ok ((List.range 5).map (realShare env.E e sn k x), ocb') ∧
      BufferReady 5 ocb' := by
  have e1 := evalPath_eq hE k x hk.seed hk.cws hk.cw18
  have hr := evalRec_inv hE ((clear256 x).zip k.cw) hk.seed hk.bit (by
    intro c hc
    obtain ⟨x', cw⟩ := c
    exact hk.cw18 cw (List.of_mem_zip hc).2)
  obtain ⟨o, eo, hob⟩ := convertBlock_five hE he ho hr.1
  refine ⟨o, ?_, hob⟩
  unfold evaluatePF
  rw [e1]
  simp only [ok_bind, hout]
  rw [eo]
  simp only [ok_bind]
  rw [evalOut_share (by simp [elems, hout]) (by rw [hk.fcw, hout]), hout]
  rfl

theorem recsTo_succ (keys : List KeyInfo) (f : KeyInfo → Option (List Bool)) (fr : Nat → U32) (wt : Nat → KeyInfo → Nat)
    {i : Nat} (hi : i < keys.length) : recsTo keys f fr wt (i + 1) = recsTo keys f fr wt i
      ++ ((f keys[i]).map (fun id => (⟨id, fr i, wt i keys[i]⟩ : Rec))).toList := by
  unfold recsTo
  rw [List.range_succ, List.filterMap_append]
  congr 1
  rw [List.filterMap_cons, List.filterMap_nil, List.getElem?_eq_getElem hi, Option.bind_some]
  cases f keys[i] <;> rfl

/-- Component `j` of the sum of the shares. -/
def realSum (E : Cipher) (sn : Byte) (k : Key) (recs : List Rec) (j : Nat) : Nat :=
  (recs.map (fun r => r.weight * (realShare E r.fresh sn k r.id j).toNat)).sum % p

theorem getD_map_range {n j : Nat} (f : Nat → U32) (h : j < n) : ((List.range n).map f).getD j 0 = f j := by
  rw [getD_of_lt _ (by simpa using h), List.getElem_map, List.getElem_range]

theorem map_range_le {n : Nat} {f : Nat → U32} (h : ∀ j, (f j).toNat ≤ p) (j : Nat) :
    (((List.range n).map f).getD j 0).toNat ≤ p := by
  by_cases hj : j < n
  · rw [getD_map_range f hj]; exact h j
  · rw [List.getD_eq_getElem?_getD, List.getElem?_eq_none (by simpa using hj)]
    simp

theorem countLoop_sum {E : Cipher} (hE : BlockCipher E) {env : Nat → Env} (henv : ∀ i, (env i).E = E) {fr : Nat → U32}
    (hfr : ∀ i, resample (env i).fresh (env i).fuel 0 modP = ok (fr i)) {sn : Byte}
    {db : KeyDB} (hdb : db.numColumns ≤ db.keys.length) {k : Key} {n : Nat} (hk : KeyOk k n)
    {sel : KeyInfo → Res (Option (List Bool))} {f : KeyInfo → Option (List Bool)} (hsel : ∀ ki ∈ db.keys, sel ki = ok (f ki))
    (hlen : ∀ ki ∈ db.keys, ∀ id, f ki = some id → id.length = n) {buf : List Byte} (hbuf : BufferReady 5 buf) :
    ∃ acc, countLoop env sn db k sel ⟨List.replicate 5 0, List.replicate 5 0, buf⟩ = ok acc ∧ acc.out.length = 5 ∧
      ∀ j, j < 5 → (acc.out.getD j 0).toNat = realSum E sn k (recsTo db.keys f fr (fun _ _ => 1) db.numColumns) j := by
  have key := forLoop_inv (n := db.numColumns) (s := (⟨List.replicate 5 0, List.replicate 5 0, buf⟩ : Acc))
    (body := fun i (s : Acc) => do
      let ki ← idx db.keys i
      let id ← sel ki
      match id with
      | none => ok s
      | some id => do
        let (tmp, buf) ← evaluatePF (env i) s.buf sn k id s.tmp
        let out ← accumulate s.out tmp
        ok ⟨out, tmp, buf⟩)
    (fun i (s : Acc) => s.out.length = 5 ∧ s.tmp.length = 5 ∧ BufferReady 5 s.buf ∧
      ∀ j, (s.out.getD j 0).toNat = if j < 5 then realSum E sn k (recsTo db.keys f fr (fun _ _ => 1) i) j else 0)
    (by
      refine ⟨by simp, by simp, hbuf, ?_⟩
      intro j
      simp only [getD_replicate_zero]
      simp [recsTo, realSum])
    (by
      rintro i ⟨out, tmp, b⟩ hi ⟨hl, htl, hb, hv⟩
      simp only at hl htl hb hv
      have hik : i < db.keys.length := by omega
      rw [idx_of_lt hik]
      simp only [ok_bind]
      rw [hsel _ (List.getElem_mem hik)]
      simp only [ok_bind]
      have hrecs := recsTo_succ db.keys f fr (fun _ _ => 1) hik
      cases hf : f db.keys[i] with
      | none =>
        simp only
        refine ⟨_, rfl, hl, htl, hb, ?_⟩
        intro j
        rw [hrecs, hf]
        simpa using hv j
      | some id =>
        simp only
        have hid := hlen _ (List.getElem_mem hik) id hf
        obtain ⟨b', e, hb'⟩ := eval_five (env := env i) (by rw [henv i]; exact hE) (hfr i) hb (k := k) (x := id)
          (by rw [hid]; exact hk) sn htl
        rw [e]
        simp only [ok_bind]
        obtain ⟨o, eo, hol, hov⟩ := accumulate_eq (out := out) (tmp := (List.range 5).map (realShare (env i).E (fr i) sn k id))
          (by simp [hl])
          (by intro j; rw [hv j]; split
              · exact Nat.mod_lt _ p_pos
              · exact p_pos)
          (map_range_le (fun j => shareOf_le ..))
        rw [eo]
        simp only [ok_bind]
        refine ⟨_, rfl, hol.trans hl, by simp, hb', ?_⟩
        intro j
        by_cases hj : j < 5
        · simp only
          rw [if_pos hj, hov j (by omega), hv j, if_pos hj, getD_map_range _ hj, hrecs, hf, henv i]
          simp [realSum]
        · simp only
          rw [if_neg hj, List.getD_eq_getElem?_getD, List.getElem?_eq_none (by rw [hol]; omega)]
          simp)
  obtain ⟨acc, e, hl, -, -, hv⟩ := key
  refine ⟨acc, e, hl, ?_⟩
  intro j hj
  rw [hv j, if_pos hj]

theorem avgLoop_sum {E : Cipher} (hE : BlockCipher E) {env : Nat → Env} (henv : ∀ i, (env i).E = E) {fr : Nat → U32}
    (hfr : ∀ i, resample (env i).fresh (env i).fuel 0 modP = ok (fr i)) {sn : Byte} {now : Nat → Int}
    {db : KeyDB} (hdb : db.numColumns ≤ db.keys.length) {k : Key} {n : Nat} (hk : KeyOk k n)
    (hage : ∀ i, ∀ ki ∈ db.keys, now i - ki.creation.year < 2 ^ 32)
    {sel : KeyInfo → Res (Option (List Bool))} {f : KeyInfo → Option (List Bool)} (hsel : ∀ ki ∈ db.keys, sel ki = ok (f ki))
    (hlen : ∀ ki ∈ db.keys, ∀ id, f ki = some id → id.length = n) {buf : List Byte} (hbuf : BufferReady 5 buf) :
    ∃ acc sum, avgLoop env now sn db k sel ⟨List.replicate 5 0, List.replicate 5 0, buf⟩ (List.replicate 5 0) = ok (acc, sum) ∧
      acc.out.length = 5 ∧ sum.length = 5 ∧
      ∀ j, j < 5 → (acc.out.getD j 0).toNat = realSum E sn k (recsTo db.keys f fr (isAged now) db.numColumns) j ∧
        (sum.getD j 0).toNat = realSum E sn k (recsTo db.keys f fr (ageOf now) db.numColumns) j := by
  have key := forLoop_inv (n := db.numColumns)
    (s := ((⟨List.replicate 5 0, List.replicate 5 0, buf⟩ : Acc), List.replicate 5 (0 : U32)))
    (body := fun i (s : Acc × List U32) => do
    let ki ← idx db.keys i
    let id ← sel ki
    match id with
    | none => ok s
    | some id => do
      let (tmp, buf) ← evaluatePF (env i) s.1.buf sn k id s.1.tmp
      let diffYears := now i - ki.creation.year
      if diffYears < 0 then ok (⟨s.1.out, tmp, buf⟩, s.2)
      else do
        let (out, sum) ← accumulateAvg s.1.out s.2 tmp diffYears
        ok (⟨out, tmp, buf⟩, sum))
    (fun i (s : Acc × List U32) => s.1.out.length = 5 ∧ s.2.length = 5 ∧ s.1.tmp.length = 5 ∧ BufferReady 5 s.1.buf ∧
      ∀ j, (s.1.out.getD j 0).toNat = (if j < 5 then realSum E sn k (recsTo db.keys f fr (isAged now) i) j else 0) ∧
        (s.2.getD j 0).toNat = (if j < 5 then realSum E sn k (recsTo db.keys f fr (ageOf now) i) j else 0))
    (by
      refine ⟨by simp, by simp, by simp, hbuf, ?_⟩
      intro j
      simp only [getD_replicate_zero]
      simp [recsTo, realSum])
    (by
      rintro i ⟨⟨out, tmp, b⟩, sum⟩ hi ⟨hl, hsl, htl, hb, hv⟩
      simp only at hl hsl htl hb hv
      have hik : i < db.keys.length := by omega
      rw [idx_of_lt hik]
      simp only [ok_bind]
      rw [hsel _ (List.getElem_mem hik)]
      simp only [ok_bind]
      have hrecs := recsTo_succ db.keys f fr (isAged now) hik
      have hrecs' := recsTo_succ db.keys f fr (ageOf now) hik
      cases hf : f db.keys[i] with
      | none =>
        simp only
        refine ⟨_, rfl, hl, hsl, htl, hb, ?_⟩
        intro j
        rw [hrecs, hrecs', hf]
        simpa using hv j
      | some id =>
        simp only
        have hid := hlen _ (List.getElem_mem hik) id hf
        obtain ⟨b', e, hb'⟩ := eval_five (env := env i) (by rw [henv i]; exact hE) (hfr i) hb (k := k) (x := id)
          (by rw [hid]; exact hk) sn htl
        rw [e]
        simp only [ok_bind]
        by_cases hneg : now i - db.keys[i].creation.year < 0
        · rw [if_pos hneg]
          refine ⟨_, rfl, hl, hsl, by simp, hb', ?_⟩
          intro j
          have hz : (now i - db.keys[i].creation.year).toNat = 0 := by omega
          have h1 : isAged now i db.keys[i] = 0 := by unfold isAged; rw [if_pos hneg]
          have h2 : ageOf now i db.keys[i] = 0 := hz
          rw [hrecs, hrecs', hf]
          simp only [Option.map_some, Option.toList_some, realSum, List.map_append, List.sum_append, List.map_cons, h1, h2,
            Nat.zero_mul, List.map_nil, List.sum_cons, List.sum_nil, Nat.add_zero]
          exact hv j
        · rw [if_neg hneg]
          obtain ⟨o, s, eo, hol, hsl', hov⟩ := accumulateAvg_eq (out := out) (sum := sum)
            (tmp := (List.range 5).map (realShare (env i).E (fr i) sn k id))
            (w := now i - db.keys[i].creation.year) (by simp [hl]) (by omega)
            (by intro j; rw [(hv j).1]; split
                · exact Nat.mod_lt _ p_pos
                · exact p_pos)
            (by intro j; rw [(hv j).2]; split
                · exact Nat.mod_lt _ p_pos
                · exact p_pos)
            (map_range_le (fun j => shareOf_le ..))
            (by omega) (hage i _ (List.getElem_mem hik))
          rw [eo]
          simp only [ok_bind]
          refine ⟨_, rfl, hol.trans hl, hsl'.trans hl, by simp, hb', ?_⟩
          intro j
          by_cases hj : j < 5
          · obtain ⟨w1, w2⟩ := hov j (by omega)
            obtain ⟨v1, v2⟩ := hv j
            rw [if_pos hj] at v1 v2
            have h1 : isAged now i db.keys[i] = 1 := by unfold isAged; rw [if_neg hneg]
            have h2 : ageOf now i db.keys[i] = (now i - db.keys[i].creation.year).toNat := rfl
            simp only
            rw [if_pos hj, if_pos hj, w1, w2, v1, v2, getD_map_range _ hj, hrecs, hrecs', hf, henv i]
            simp only [Option.map_some, Option.toList_some, realSum, List.map_append, List.sum_append, List.map_cons, h1, h2,
              Nat.one_mul, List.map_nil, List.sum_cons, List.sum_nil, Nat.add_zero, Nat.mod_add_mod, true_and]
            rw [Nat.mul_comm]
          · simp only
            rw [if_neg hj, if_neg hj, List.getD_eq_getElem?_getD, List.getElem?_eq_none (by rw [hol]; omega),
              List.getD_eq_getElem?_getD, List.getElem?_eq_none (by rw [hsl']; omega)]
            simp)
  obtain ⟨⟨acc, sum⟩, e, hl, hsl, -, -, hv⟩ := key
  refine ⟨acc, sum, e, hl, hsl, ?_⟩
  intro j hj
  obtain ⟨v1, v2⟩ := hv j
  rw [if_pos hj] at v1 v2
  exact ⟨v1, v2⟩

end Verif.Forge
