import Verif.Model.Shared
import Verif.Lemmas.FssCorrect
import Mathlib.Logic.Relation

/-! # Lemmas about predicate servers with shared scratch arrays: a call of `EvaluatePF` that is alone -/

namespace Verif.Shared
open Res Verif.Field Verif.Fss Verif.Fss.Spec Verif.Query Verif.Predicate

/-- A call of `EvaluatePF` and the arrays. -/
abbrev Cfg := Eval × Mem

section
variable {env : Env} {sn : Byte} {k : Key}

/-- One step after which the call goes on. -/
def Step (env : Env) (sn : Byte) (k : Key) (c c' : Cfg) : Prop := evalStep env sn k c.1 c.2 = ok (.go c'.1, c'.2)

/-- Some steps of the call alone. -/
def Goes (env : Env) (sn : Byte) (k : Key) : Cfg → Cfg → Prop := Relation.ReflTransGen (Step env sn k)

/-- The call alone panics. -/
def Fails (env : Env) (sn : Byte) (k : Key) (c : Cfg) : Prop :=
  ∃ c' msg, Goes env sn k c c' ∧ evalStep env sn k c'.1 c'.2 = crash msg

/-- The call alone does what the computation `r` does: it gets to a configuration related to the result, or panics. -/
def Sim {α : Type} (env : Env) (sn : Byte) (k : Key) (r : Res α) (c : Cfg) (Q : α → Cfg → Prop) : Prop :=
  match r with
  | ok a => ∃ c', Goes env sn k c c' ∧ Q a c'
  | err _ => False
  | crash _ => Fails env sn k c

theorem Sim.ok {α : Type} {a : α} {c : Cfg} {Q : α → Cfg → Prop} (h : Q a c) : Sim env sn k (ok a) c Q :=
  ⟨c, .refl, h⟩

theorem Fails.goes {c c' : Cfg} (h : Goes env sn k c c') (hf : Fails env sn k c') : Fails env sn k c := by
  obtain ⟨d, msg, h1, h2⟩ := hf
  exact ⟨d, msg, h.trans h1, h2⟩

theorem Sim.goes {α : Type} {r : Res α} {c c' : Cfg} {Q : α → Cfg → Prop} (h : Goes env sn k c c')
    (hs : Sim env sn k r c' Q) : Sim env sn k r c Q := by
  cases r with
  | ok a =>
    obtain ⟨d, h1, h2⟩ := hs
    exact ⟨d, h.trans h1, h2⟩
  | err m => exact hs.elim
  | crash m => exact Fails.goes h hs

theorem Sim.step {α : Type} {r : Res α} {c : Cfg} {e' : Eval} {m' : Mem} {Q : α → Cfg → Prop}
    (h : evalStep env sn k c.1 c.2 = .ok (.go e', m')) (hs : Sim env sn k r (e', m') Q) : Sim env sn k r c Q :=
  Sim.goes (c' := (e', m')) (Relation.ReflTransGen.single h) hs

theorem Sim.bind {α β : Type} {r : Res α} {f : α → Res β} {c : Cfg} {Q : α → Cfg → Prop} {Q' : β → Cfg → Prop}
    (h : Sim env sn k r c Q) (hf : ∀ a c', Q a c' → Sim env sn k (f a) c' Q') : Sim env sn k (r >>= f) c Q' := by
  cases r with
  | ok a =>
    obtain ⟨d, h1, h2⟩ := h
    exact Sim.goes h1 (hf a d h2)
  | err m => exact h.elim
  | crash m => exact h

theorem Sim.mono {α : Type} {r : Res α} {c : Cfg} {Q Q' : α → Cfg → Prop}
    (h : Sim env sn k r c Q) (hf : ∀ a c', Q a c' → Q' a c') : Sim env sn k r c Q' := by
  cases r with
  | ok a =>
    obtain ⟨d, h1, h2⟩ := h
    exact ⟨d, h1, hf a d h2⟩
  | err m => exact h.elim
  | crash m => exact h

theorem Sim.loop {σ : Type} {n : Nat} {body : Nat → σ → Res σ} {s : σ} {c : Cfg} (R : Nat → σ → Cfg → Prop)
    (h0 : R 0 s c) (hb : ∀ i t d, i < n → R i t d → Sim env sn k (body i t) d (R (i + 1))) :
    Sim env sn k (forLoop n body s) c (R n) := by
  induction n with
  | zero => exact Sim.ok h0
  | succ n ih =>
    rw [forLoop_succ]
    exact Sim.bind (ih fun i t d hi => hb i t d (by omega)) fun t d hd => hb n t d (by omega) hd

theorem Sim.crash {α : Type} {c : Cfg} {msg msg' : String} {Q : α → Cfg → Prop}
    (h : evalStep env sn k c.1 c.2 = .crash msg) : Sim env sn k (.crash msg' : Res α) c Q := ⟨c, msg, .refl, h⟩

/-! ### Encryption into a shared array -/

/-- One block of the expansion, written over whatever the array contained. -/
theorem mix_one {E : Cipher} (hE : BlockCipher E) {s o o0 : List Byte} (hs : s.length = 16) {j : Nat}
    (ho : o = stream E s j ++ o0.drop (j * 16)) (hl : (j + 1) * 16 ≤ o0.length) :
    (do let window ← slice o (j * 16) o.length
        copyAt o (j * 16) (fastxor window (E j s) s)) = Res.ok (stream E s (j + 1) ++ o0.drop ((j + 1) * 16)) := by
  have hst := stream_length hE hs j
  have hol : o.length = o0.length := by rw [ho]; simp [hst]; omega
  have hEl := hE j s hs
  rw [slice_of_le (by omega) (le_refl _)]
  simp only [ok_bind]
  rw [copyAt_of_le (by rw [fastxor_length]; simp; omega)]
  congr 1
  rw [fastxor_length]
  have hdrop : o.drop (j * 16) = o0.drop (j * 16) := by
    rw [ho, List.drop_append_of_le_length (by omega), List.drop_of_length_le (by omega), List.nil_append]
  have htake : o.take (j * 16) = stream E s j := by
    rw [ho, List.take_append_of_le_length (by omega), List.take_of_length_le (by omega)]
  have hstr : stream E s (j + 1) = stream E s j ++ List.zipWith (· ^^^ ·) (E j s) s := by
    simp [stream, List.range_succ]
  have hz : (List.zipWith (· ^^^ ·) (E j s) s).length = 16 := by simp [hEl, hs]
  rw [htake, hdrop, hstr]
  rw [List.take_of_length_le (by simp [hol] : (o0.drop (j * 16)).length ≤ o.length - j * 16)]
  unfold fastxor
  simp only [hEl, hs, Nat.min_self]
  rw [show min (o0.drop (j * 16)).length 16 = 16 by simp; omega, List.take_of_length_le (by omega)]
  simp only [List.length_drop]
  rw [List.drop_of_length_le (l := o) (by omega), List.append_nil, List.drop_drop,
    show j * 16 + 16 = (j + 1) * 16 by omega, List.append_assoc]

/-- Steps of `prf` on `Out` (lib/fss/server.go:51). -/
theorem prf_steps (hE : BlockCipher env.E) {e : Eval} {m : Mem} (hs : e.s.length = 16) (ho : m.out.length = 64)
    (hp : e.pc = .encrypt 0) : ∃ temp, Goes env sn k (e, m)
      ({ e with pc := .correct 0 0 }, { m with temp := temp, out := stream env.E e.s 3 ++ m.out.drop 48 }) := by
  have key : ∀ j, j ≤ 3 → ∃ temp, Goes env sn k (e, m)
      ({ e with pc := .encrypt j }, { m with temp := temp, out := stream env.E e.s j ++ m.out.drop (j * 16) }) := by
    intro j
    induction j with
    | zero =>
      intro _
      refine ⟨m.temp, ?_⟩
      have h1 : ({ e with pc := .encrypt 0 } : Eval) = e := by rw [← hp]
      have h2 : stream env.E e.s 0 ++ m.out.drop (0 * 16) = m.out := by simp [stream]
      rw [h1, h2]
      exact .refl
    | succ j ih =>
      intro hj
      obtain ⟨temp, hg⟩ := ih (by omega)
      refine ⟨env.E j e.s, (hg.tail ?_).tail (b := ({ e with pc := .mix j },
        { m with temp := env.E j e.s, out := stream env.E e.s j ++ m.out.drop (j * 16) })) ?_⟩
      · show evalStep _ _ _ _ _ = _
        simp only [evalStep]
        rw [if_pos (by omega), if_neg (by omega), if_neg (by omega), List.take_of_length_le (by omega)]
      · show evalStep _ _ _ _ _ = _
        simp only [evalStep]
        have := mix_one hE hs (j := j) (o := stream env.E e.s j ++ m.out.drop (j * 16)) (o0 := m.out) rfl (by omega)
        rw [← bind_assoc, this]
        rfl
  obtain ⟨temp, hg⟩ := key 3 (le_refl _)
  refine ⟨temp, hg.tail ?_⟩
  show evalStep _ _ _ _ _ = _
  simp [evalStep]

/-- Steps of `prf` on `OutConvertBlock` (lib/fss/common.go:70). -/
theorem prfFinal_steps (hE : BlockCipher env.E) {e : Eval} {m : Mem} (hs : e.s.length = 16)
    (hn : e.out.length < 20) (ho : m.ocb.length = e.out.length * 4)
    (hp : e.pc = .encryptFinal 0) : ∃ temp, Goes env sn k (e, m)
      ({ e with pc := .elem 0 }, { m with temp := temp, ocb := (stream env.E e.s (e.out.length / 4) ++
        m.ocb.drop (e.out.length / 4 * 16)) }) := by
  have key : ∀ j, j ≤ e.out.length / 4 → ∃ temp, Goes env sn k (e, m)
      ({ e with pc := .encryptFinal j }, { m with temp := temp, ocb := stream env.E e.s j ++ m.ocb.drop (j * 16) }) := by
    intro j
    induction j with
    | zero =>
      intro _
      refine ⟨m.temp, ?_⟩
      have h1 : ({ e with pc := .encryptFinal 0 } : Eval) = e := by rw [← hp]
      have h2 : stream env.E e.s 0 ++ m.ocb.drop (0 * 16) = m.ocb := by simp [stream]
      rw [h1, h2]
      exact .refl
    | succ j ih =>
      intro hj
      obtain ⟨temp, hg⟩ := ih (by omega)
      refine ⟨env.E j e.s, (hg.tail ?_).tail (b := ({ e with pc := .mixFinal j },
        { m with temp := env.E j e.s, ocb := stream env.E e.s j ++ m.ocb.drop (j * 16) })) ?_⟩
      · show evalStep _ _ _ _ _ = _
        simp only [evalStep]
        rw [if_pos (by omega), if_neg (by omega), if_neg (by omega), List.take_of_length_le (by omega)]
      · show evalStep _ _ _ _ _ = _
        simp only [evalStep]
        have := mix_one hE hs (j := j) (o := stream env.E e.s j ++ m.ocb.drop (j * 16)) (o0 := m.ocb) rfl (by omega)
        rw [← bind_assoc, this]
        rfl
  obtain ⟨temp, hg⟩ := key _ (le_refl _)
  refine ⟨temp, hg.tail ?_⟩
  show evalStep _ _ _ _ _ = _
  simp [evalStep]

/-! ### One level of the tree -/

theorem idx_take {α : Type _} {l : List α} {i n : Nat} (h : i < n) : idx (l.take n) i = idx l i := by
  simp [idx, h]

theorem slice_take {l l' : List Byte} (h : l.take 48 = l'.take 48) (hl : l.length = 64) (hl' : l'.length = 64) {a b : Nat}
    (hab : a ≤ b) (hb : b ≤ 48) : slice l a b = slice l' a b := by
  rw [slice_of_le hab (by omega), slice_of_le hab (by omega)]
  have : ∀ v : List Byte, (v.drop a).take (b - a) = ((v.take 48).drop a).take (b - a) := by
    intro v
    rw [List.drop_take, List.take_take]
    congr 1
    omega
  rw [this l, this l', h]

/-- lib/fss/server.go:53-64 on arrays that agree on the first 48 bytes. -/
theorem correct_sim {e : Eval} {m : Mem} {o cw : List Byte} (ho : o.length = 64) (hm : m.out.length = 64)
    (hom : o.take 48 = m.out.take 48) (hcw : idx k.cw e.i = Res.ok cw) (hp : e.pc = .correct 0 0) :
    Sim env sn k (Fss.correct o e.t cw) (e, m) (fun o' c => ∃ out, c = ({ e with pc := .pick }, { m with out := out }) ∧
      o'.length = 64 ∧ out.length = 64 ∧ o'.take 48 = out.take 48) := by
  unfold Fss.correct
  refine Sim.bind (Q := fun (s : List Byte × Nat) c => ∃ out, c = ({ e with pc := .correct (16 * 2 + 2) s.2 }, { m with out := out }) ∧
      s.1.length = 64 ∧ out.length = 64 ∧ s.1.take 48 = out.take 48) ?_ ?_
  · refine Sim.loop (fun j (s : List Byte × Nat) c => ∃ out, c = ({ e with pc := .correct j s.2 }, { m with out := out }) ∧
      s.1.length = 64 ∧ out.length = 64 ∧ s.1.take 48 = out.take 48) ⟨m.out, by simp [← hp], ho, hm, hom⟩ ?_
    rintro j ⟨ob, cnt⟩ d hj ⟨out, rfl, h1, h2, h3⟩
    simp only at h1 h3 ⊢
    have e1 : idx ob j = idx out j := by rw [← idx_take (n := 48) (by omega), h3, idx_take (by omega)]
    have hstep : evalStep env sn k { e with pc := .correct j cnt } { m with out := out } = (do
        let count := if j = 16 + 1 then 0 else if j = 16 * 2 + 1 then 16 + 1 else cnt
        let o ← idx out j
        let c ← idx cw count
        let out ← setAt out j (o ^^^ (e.t * c))
        Res.ok (.go { e with pc := .correct (j + 1) (count + 1) }, { m with out := out })) := by
      simp only [evalStep]
      rw [if_pos hj]
      simp only [hcw, ok_bind]
    have hj1 : j < out.length := by omega
    rw [e1, idx_of_lt hj1]
    rw [idx_of_lt hj1] at hstep
    simp only [ok_bind] at hstep ⊢
    cases hc : idx cw (if j = 16 + 1 then 0 else if j = 16 * 2 + 1 then 16 + 1 else cnt) with
    | ok c =>
      rw [hc] at hstep
      simp only [ok_bind] at hstep ⊢
      rw [setAt_of_lt (by omega)] at hstep ⊢
      simp only [ok_bind] at hstep ⊢
      exact Sim.step hstep (Sim.ok ⟨_, rfl, by simpa using h1, by simpa using h2, by
        rw [List.take_set, List.take_set, h3]⟩)
    | err msg => unfold idx at hc; split at hc <;> cases hc
    | crash msg =>
      rw [hc] at hstep
      simp only [crash_bind] at hstep ⊢
      exact Sim.crash hstep
  · rintro ⟨o', cnt⟩ d ⟨out, rfl, h1, h2, h3⟩
    refine Sim.step (e' := { e with pc := .pick }) (m' := { m with out := out }) ?_ (Sim.ok ⟨out, rfl, h1, h2, h3⟩)
    simp [evalStep]

/-- The call is at the head of its loop with the given seed and control bit, and the arrays are intact. -/
def AtLevel (x : List Bool) (out : List U32) (ocb : List Byte) (i : Nat) (st : List Byte × Byte) (c : Cfg) : Prop :=
  c.1 = ⟨x, st.1, st.2, i, List.replicate out.length 0, out, .level⟩ ∧ st.1.length = 16 ∧ c.2.out.length = 64 ∧
    c.2.ocb = ocb

theorem level_sim (hE : BlockCipher env.E) {x : List Bool} {out : List U32} {ocb : List Byte} {i : Nat}
    {st : List Byte × Byte} {c : Cfg} (hi : i < x.length) (h : AtLevel x out ocb i st c) :
    Sim env sn k (do
      let xi ← (if i ≠ maxBits then idx x i else Res.ok false)
      let cw ← idx k.cw i
      Fss.evalStep env.E xi cw st.1 st.2) c (AtLevel x out ocb (i + 1)) := by
  obtain ⟨e, m⟩ := c
  obtain ⟨s, t⟩ := st
  obtain ⟨he, hs, hm, hocb⟩ := h
  simp only at he hs hm hocb ⊢
  obtain ⟨xi, hxi⟩ : ∃ xi, (if i ≠ maxBits then idx x i else Res.ok false) = Res.ok xi := by
    split
    · exact ⟨_, idx_of_lt hi⟩
    · exact ⟨_, rfl⟩
  rw [hxi]
  simp only [ok_bind]
  subst he
  -- the head of the loop
  refine Sim.step (e' := ⟨x, s, t, i, List.replicate out.length 0, out, .encrypt 0⟩) (m' := m) ?_ ?_
  · simp only [evalStep]
    rw [if_pos hi]
  obtain ⟨temp, hg⟩ := prf_steps (env := env) (sn := sn) (k := k) hE
    (e := ⟨x, s, t, i, List.replicate out.length 0, out, .encrypt 0⟩) (m := m) hs hm rfl
  refine Sim.goes hg ?_
  have hst := stream_length hE hs 3
  cases hcw : idx k.cw i with
  | err msg => unfold idx at hcw; split at hcw <;> cases hcw
  | crash msg =>
    refine Sim.crash (msg := msg) ?_
    simp only [evalStep]
    rw [if_pos (by omega), idx_of_lt (by simp [hst])]
    simp [hcw]
  | ok cw =>
    simp only [ok_bind]
    unfold Fss.evalStep
    rw [prf_eq hE hs (by omega) (by simp)]
    simp only [ok_bind]
    refine Sim.bind (correct_sim (e := ⟨x, s, t, i, List.replicate out.length 0, out, .correct 0 0⟩) (cw := cw)
      (by simp [hst]) (by simp [hst, hm]) ?_ hcw rfl) ?_
    · rw [List.take_append_of_le_length (by omega), List.take_append_of_le_length (by omega)]
    · rintro o' c ⟨out', rfl, h1, h2, h3⟩
      have e1 : idx o' 16 = idx out' 16 := by rw [← idx_take (n := 48) (by omega), h3, idx_take (by omega)]
      have e2 : idx o' 33 = idx out' 33 := by rw [← idx_take (n := 48) (by omega), h3, idx_take (by omega)]
      have e3 := slice_take h3 h1 h2 (a := 0) (b := 16) (by omega) (by omega)
      have e4 := slice_take h3 h1 h2 (a := 17) (b := 33) (by omega) (by omega)
      rw [e1, e2, e3, e4, slice_of_le (by omega) (by omega), slice_of_le (by omega) (by omega),
        idx_of_lt (by omega), idx_of_lt (by omega)]
      have hl1 : ((out'.drop 0).take (16 - 0)).length = 16 := by simp; omega
      have hl2 : ((out'.drop 17).take (33 - 17)).length = 16 := by simp; omega
      cases xi
      · simp only [Bool.false_eq_true, if_false, if_true, ok_bind]
        refine Sim.step (e' := ⟨x, (out'.drop 0).take (16 - 0), out'[16]'(by omega) % 2, i + 1,
          List.replicate out.length 0, out, .level⟩) (m' := { m with temp := temp, out := out' }) ?_ (Sim.ok ⟨rfl, hl1, h2, hocb⟩)
        simp only [evalStep, hxi, ok_bind, Bool.false_eq_true, if_false]
        rw [slice_of_le (by omega) (by omega), idx_of_lt (by omega)]
        rfl
      · have n1 : ¬ ((1 : Byte) = 0) := by decide
        simp only [if_true, ok_bind, n1, if_false]
        refine Sim.step (e' := ⟨x, (out'.drop 17).take (33 - 17), out'[33]'(by omega) % 2, i + 1,
          List.replicate out.length 0, out, .level⟩) (m' := { m with temp := temp, out := out' }) ?_ (Sim.ok ⟨rfl, hl2, h2, hocb⟩)
        simp only [evalStep, hxi, ok_bind, if_true]
        rw [slice_of_le (by omega) (by omega), idx_of_lt (by omega)]
        rfl

/-! ### Computations that return no error -/

theorem idx_isErr {α : Type _} (l : List α) (i : Nat) : ¬ (idx l i).isErr := by
  unfold idx; split <;> simp

theorem setAt_isErr {α : Type _} (l : List α) (i : Nat) (a : α) : ¬ (setAt l i a).isErr := by
  unfold setAt; split <;> simp

theorem slice_isErr {α : Type _} (l : List α) (i j : Nat) : ¬ (slice l i j).isErr := by
  unfold slice; split <;> simp

theorem copyAt_isErr {α : Type _} (l : List α) (i : Nat) (r : List α) : ¬ (copyAt l i r).isErr := by
  unfold copyAt; split <;> simp

theorem bind_isErr {α β : Type _} {r : Res α} {f : α → Res β} (h : ¬ r.isErr) (hf : ∀ a, ¬ (f a).isErr) :
    ¬ (r >>= f).isErr := by
  cases r with
  | ok a => exact hf a
  | err m => exact absurd (by simp) h
  | crash m => simp

theorem forLoop_isErr {σ : Type _} {n : Nat} {body : Nat → σ → Res σ} {s : σ} (h : ∀ i t, ¬ (body i t).isErr) :
    ¬ (forLoop n body s).isErr := by
  induction n with
  | zero => simp
  | succ n ih => rw [forLoop_succ]; exact bind_isErr ih (h n)

theorem resample_isErr (fresh : Nat → U32) (fuel : Nat) : ∀ (j : Nat) (v : U32), ¬ (resample fresh fuel j v).isErr := by
  induction fuel with
  | zero => intro j v; unfold resample; split <;> simp
  | succ fuel ih =>
    intro j v
    unfold resample
    split
    · exact ih _ _
    · simp

theorem toElement_isErr (fresh : Nat → U32) (fuel : Nat) (c : List Byte) : ¬ (toElement fresh fuel c).isErr := by
  unfold toElement
  refine bind_isErr (idx_isErr _ _) fun _ => bind_isErr (setAt_isErr _ _ _) fun _ => bind_isErr (slice_isErr _ _ _)
    fun _ => bind_isErr ?_ fun _ => bind_isErr (resample_isErr _ _ _ _) fun _ => by simp
  unfold getBE32
  split <;> simp

theorem evalOut_isErr (sn : Byte) (tmp fcw : List U32) (t : Byte) (out : List U32) :
    ¬ (evalOut sn tmp fcw t out).isErr := by
  unfold evalOut
  refine forLoop_isErr fun i v => bind_isErr (idx_isErr _ _) fun _ => bind_isErr (idx_isErr _ _) fun _ => ?_
  simp only
  split <;> exact setAt_isErr _ _ _

/-! ### The whole call -/

theorem getElem?_zero_of_drop {l : List Byte} {a b : Nat} (h : l.drop a = List.replicate b 0) {j : Nat} (hj : a ≤ j) :
    l.getD j 0 = 0 := by
  rw [List.getD_eq_getElem?_getD]
  have : l[j]? = (l.drop a)[j - a]? := by rw [List.getElem?_drop]; congr 1; omega
  rw [this, h, List.getElem?_replicate]
  split <;> rfl

theorem toElement_zero {fresh : Nat → U32} {fuel : Nat} {c c' : List Byte} {v : U32}
    (h : toElement fresh fuel c = Res.ok (v, c')) :
    c'.length = c.length ∧ ∀ j, c.getD j 0 = 0 → c'.getD j 0 = 0 := by
  unfold toElement at h
  simp only [bind_eq_ok] at h
  obtain ⟨b, hb, d, hd, _, _, _, _, _, _, he⟩ := h
  simp only [Res.ok.injEq, Prod.mk.injEq] at he
  obtain ⟨-, rfl⟩ := he
  unfold setAt at hd
  split at hd
  · simp only [Res.ok.injEq] at hd
    subst hd
    refine ⟨by simp, ?_⟩
    intro j hj
    rw [List.getD_eq_getElem?_getD, List.getElem?_set]
    by_cases h0 : 0 = j
    · subst h0
      rw [if_pos rfl]
      rw [idx_eq_ok] at hb
      rw [List.getD_eq_getElem?_getD, hb] at hj
      simp only [Option.getD_some] at hj
      subst hj
      split <;> rfl
    · rw [if_neg h0, ← List.getD_eq_getElem?_getD]
      exact hj
  · cases hd

/-- What `BytesToElements` leaves in the array: its length and its zero bytes are kept. -/
def Kept (n : Nat) (buf : List Byte) : Prop := buf.length = n * 4 ∧ ∀ j, n / 4 * 16 ≤ j → buf.getD j 0 = 0

theorem kept_iff {n : Nat} {buf : List Byte} : Kept n buf ↔ BufferReady n buf := by
  constructor
  · rintro ⟨h1, h2⟩
    refine ⟨h1, ?_⟩
    apply List.ext_getElem
    · simp [h1]
    · intro j hj hj'
      have := h2 (n / 4 * 16 + j) (by omega)
      simp only [List.length_drop] at hj
      rw [getD_of_lt _ (by omega)] at this
      simp [this]
  · rintro ⟨h1, h2⟩
    exact ⟨h1, fun j hj => getElem?_zero_of_drop h2 hj⟩

theorem elem_kept {fresh : Nat → U32} {fuel n : Nat} {ocb ocb' chunk chunk' : List Byte} {v : U32} {j : Nat}
    (hj : j < n) (hk : Kept n ocb) (hc : slice ocb (j * 4) ((j + 1) * 4) = Res.ok chunk)
    (ht : toElement fresh fuel chunk = Res.ok (v, chunk')) (ho : copyAt ocb (j * 4) chunk' = Res.ok ocb') :
    Kept n ocb' := by
  obtain ⟨hl, hz⟩ := hk
  rw [slice_of_le (by omega) (by omega)] at hc
  simp only [Res.ok.injEq] at hc
  obtain ⟨hcl, hcz⟩ := toElement_zero ht
  have hchl : chunk.length = 4 := by rw [← hc]; simp; omega
  rw [copyAt_of_le (by omega)] at ho
  simp only [Res.ok.injEq] at ho
  subst ho
  refine ⟨by simp; omega, ?_⟩
  intro i hi
  have hzi := hz i hi
  rw [List.getD_eq_getElem?_getD] at hzi ⊢
  by_cases h1 : i < j * 4
  · rw [List.append_assoc, List.getElem?_append_left (by simp; omega), List.getElem?_take, if_pos h1]
    exact hzi
  · by_cases h2 : i < j * 4 + 4
    · rw [List.getElem?_append_left (by simp; omega), List.getElem?_append_right (by simp; omega)]
      simp only [List.length_take]
      rw [show min (j * 4) ocb.length = j * 4 by omega, ← List.getD_eq_getElem?_getD]
      apply hcz
      rw [← hc, List.getD_eq_getElem?_getD, List.getElem?_take, if_pos (by omega), List.getElem?_drop,
        show j * 4 + (i - j * 4) = i by omega]
      exact hzi
    · rw [List.getElem?_append_right (by simp; omega)]
      simp only [List.length_append, List.length_take]
      rw [List.getElem?_drop, show j * 4 + chunk'.length + (i - (min (j * 4) ocb.length + chunk'.length)) = i by omega]
      exact hzi

/-- The arrays between two calls: `Out` has its size, and `OutConvertBlock` is as a new instance or a finished call
leaves it. -/
def MemOk (n : Nat) (m : Mem) : Prop := m.out.length = 64 ∧ BufferReady n m.ocb

/-- The call is about to return `out'`. -/
def AtEnd (env : Env) (sn : Byte) (k : Key) (n : Nat) (out' : List U32) (c : Cfg) : Prop :=
  MemOk n c.2 ∧ evalStep env sn k c.1 c.2 = ok (.done out', c.2)

/-- A call that is alone does what `evaluatePF` does, whatever the arrays contained, and whatever scratch buffer
`evaluatePF` is given. -/
theorem eval_sim (hE : BlockCipher env.E) {x : List Bool} {out : List U32} (hn : out.length < 20) {m : Mem}
    (hm : MemOk out.length m) {buf : List Byte} (hb : BufferReady out.length buf) :
    Sim env sn k (evaluatePF env buf sn k x out) (Eval.start k x out, m)
      (fun r c => AtEnd env sn k out.length r.1 c ∧ BufferReady out.length r.2) := by
  unfold evaluatePF
  refine Sim.bind (Q := AtLevel x out m.ocb x.length) ?_ ?_
  · unfold evalPath
    unfold copyAt
    rw [if_pos (Nat.zero_le _)]
    simp only [ok_bind]
    refine Sim.loop (AtLevel x out m.ocb) ⟨?_, ?_, hm.1, rfl⟩ fun i t d hi h => level_sim hE hi h
    · simp only [Eval.start, List.take_zero, List.nil_append, List.length_replicate, Nat.sub_zero, Nat.zero_add,
        List.drop_replicate]
    · simp only [List.take_zero, List.nil_append, List.length_replicate, Nat.sub_zero, Nat.zero_add,
        List.drop_replicate, List.length_append, List.length_take]
      omega
  rintro ⟨s, t⟩ ⟨e, m1⟩ ⟨he, hs, ho1, hocb⟩
  simp only at he hs ho1 hocb ⊢
  subst he
  refine Sim.step (e' := ⟨x, s, t, x.length, List.replicate out.length 0, out, .encryptFinal 0⟩) (m' := m1) ?_ ?_
  · simp [evalStep]
  obtain ⟨hml, hmz⟩ := hm.2
  obtain ⟨temp, hg⟩ := prfFinal_steps (env := env) (sn := sn) (k := k) hE
    (e := ⟨x, s, t, x.length, List.replicate out.length 0, out, .encryptFinal 0⟩) (m := m1) hs hn
    (by rw [hocb]; exact hml) rfl
  refine Sim.goes hg ?_
  simp only
  unfold convertBlock
  have hst := stream_length hE hs (out.length / 4)
  have hbl := hb.1
  rw [List.length_replicate, prf_eq hE hs (by omega) (by omega), hb.2, hocb, hmz]
  simp only [ok_bind]
  set inp := stream env.E s (out.length / 4) ++ List.replicate (out.length * 4 - out.length / 4 * 16) (0 : Byte)
    with hinp
  have hkept : Kept out.length inp := by
    rw [kept_iff]
    refine ⟨by simp [hinp, hst]; omega, ?_⟩
    rw [hinp, List.drop_append_of_le_length (by omega), List.drop_of_length_le (by omega), List.nil_append]
  refine Sim.bind (Q := fun (r : List U32 × List Byte) c => c = (⟨x, s, t, x.length, r.1, out, .elem out.length⟩,
      { m1 with temp := temp, ocb := r.2 }) ∧ r.1.length = out.length ∧ Kept out.length r.2) ?_ ?_
  · unfold bytesToElements
    rw [List.length_replicate]
    refine Sim.loop (fun j (r : List U32 × List Byte) c => c = (⟨x, s, t, x.length, r.1, out, .elem j⟩,
      { m1 with temp := temp, ocb := r.2 }) ∧ r.1.length = out.length ∧ Kept out.length r.2)
      ⟨rfl, by simp, hkept⟩ ?_
    rintro j ⟨tmp, ocb⟩ d hj ⟨rfl, h1, h2⟩
    simp only at h1 h2 ⊢
    have hstep : evalStep env sn k ⟨x, s, t, x.length, tmp, out, .elem j⟩ { m1 with temp := temp, ocb := ocb } = (do
        let chunk ← slice ocb (j * 4) ((j + 1) * 4)
        let (v, chunk) ← toElement env.fresh env.fuel chunk
        let ocb ← copyAt ocb (j * 4) chunk
        let tmp ← setAt tmp j v
        Res.ok (.go ⟨x, s, t, x.length, tmp, out, .elem (j + 1)⟩, { m1 with temp := temp, ocb := ocb })) := by
      simp only [evalStep]
      rw [if_pos (by omega)]
    have hl := h2.1
    cases hc : slice ocb (j * 4) ((j + 1) * 4) with
    | err msg => unfold slice at hc; split at hc <;> cases hc
    | crash msg =>
      rw [hc] at hstep
      exact Sim.crash hstep
    | ok chunk =>
      rw [hc] at hstep
      simp only [ok_bind] at hstep ⊢
      cases hte : toElement env.fresh env.fuel chunk with
      | err msg => exact absurd (by rw [hte]; simp) (toElement_isErr env.fresh env.fuel chunk)
      | crash msg =>
        rw [hte] at hstep
        exact Sim.crash hstep
      | ok r =>
        obtain ⟨v, chunk'⟩ := r
        rw [hte] at hstep
        simp only [ok_bind] at hstep ⊢
        cases hco : copyAt ocb (j * 4) chunk' with
        | err msg => unfold copyAt at hco; split at hco <;> cases hco
        | crash msg =>
          rw [hco] at hstep
          exact Sim.crash hstep
        | ok ocb' =>
          rw [hco] at hstep
          simp only [ok_bind] at hstep ⊢
          rw [setAt_of_lt (by omega)] at hstep ⊢
          simp only [ok_bind] at hstep ⊢
          exact Sim.step hstep (Sim.ok ⟨rfl, by simpa using h1, elem_kept hj h2 hc hte hco⟩)
  rintro ⟨tmp, ocb⟩ d ⟨rfl, h1, h2⟩
  simp only at h1 h2 ⊢
  refine Sim.step (e' := ⟨x, s, t, x.length, tmp, out, .finish⟩) (m' := { m1 with temp := temp, ocb := ocb }) ?_ ?_
  · simp [evalStep, h1]
  cases ho : evalOut sn tmp k.finalCW t out with
  | err msg => exact absurd (by rw [ho]; simp) (evalOut_isErr sn tmp k.finalCW t out)
  | crash msg =>
    refine Sim.crash (msg := msg) ?_
    simp [evalStep, ho]
  | ok out' =>
    simp only [ok_bind]
    refine Sim.ok ⟨⟨⟨ho1, kept_iff.mp h2⟩, ?_⟩, kept_iff.mp h2⟩
    simp [evalStep, ho]

end

end Verif.Shared
