import Verif.Lemmas.Shared
import Verif.Spec.Shared

/-! # Lemmas about predicate servers with shared scratch arrays: handlers and schedules -/

namespace Verif.Shared
open Res Verif.Field Verif.Fss Verif.Fss.Spec Verif.Query Verif.Predicate Verif.Shared.Spec

/-! ### Handlers run one after the other -/

/-- A computation with its calls executed at once, threading the scratch buffer. -/
def Prog.run {α : Type} (env : Nat → Env) (sn : Byte) (key : Key) : List Byte → Prog α → Res (α × List Byte)
  | buf, .ret r => do let a ← r; Res.ok (a, buf)
  | buf, .call i x out k => do
    let (tmp, buf) ← evaluatePF (env i) buf sn key x out
    (k tmp).run env sn key buf

variable {env : Nat → Env} {sn : Byte} {key : Key}

theorem run_bind {α β : Type} (p : Prog α) (f : α → Prog β) (buf : List Byte) :
    (p.bind f).run env sn key buf = (do let (a, buf) ← p.run env sn key buf; (f a).run env sn key buf) := by
  induction p generalizing buf with
  | ret r => cases r <;> simp [Prog.bind, Prog.run]
  | call i x out k ih =>
    simp only [Prog.bind, Prog.run, bind_assoc]
    congr 1
    funext v
    exact ih _ _

theorem countLoop_run {db : KeyDB} {sel : KeyInfo → Res (Option (List Bool))} (n : Nat) (out tmp : List U32)
    (buf : List Byte) :
    (Prog.loop n (countBody db sel) (out, tmp)).run env sn key buf =
      (do let s ← forLoop n (fun i (s : Acc) => do
            let ki ← idx db.keys i
            let id ← sel ki
            match id with
            | none => Res.ok s
            | some id => do
              let (tmp, buf) ← evaluatePF (env i) s.buf sn key id s.tmp
              let out ← accumulate s.out tmp
              Res.ok ⟨out, tmp, buf⟩) ⟨out, tmp, buf⟩
          Res.ok ((s.out, s.tmp), s.buf)) := by
  induction n with
  | zero => simp [Prog.loop, Prog.run]
  | succ n ih =>
    rw [Prog.loop, run_bind, ih, forLoop_succ]
    simp only [bind_assoc]
    congr 1
    funext s
    simp only [ok_bind, countBody]
    cases hk : idx db.keys n with
    | err m => simp [Prog.run]
    | crash m => simp [Prog.run]
    | ok ki =>
      simp only [ok_bind]
      cases hs : sel ki with
      | err m => simp [Prog.run]
      | crash m => simp [Prog.run]
      | ok id =>
        cases id with
        | none => simp [Prog.run]
        | some id => simp [Prog.run, bind_assoc]

theorem avgLoop_run {now : Nat → Int} {db : KeyDB} {sel : KeyInfo → Res (Option (List Bool))} (n : Nat)
    (out tmp sum : List U32) (buf : List Byte) :
    (Prog.loop n (avgBody now db sel) (out, tmp, sum)).run env sn key buf =
      (do let s ← forLoop n (fun i (s : Acc × List U32) => do
            let ki ← idx db.keys i
            let id ← sel ki
            match id with
            | none => Res.ok s
            | some id => do
              let (tmp, buf) ← evaluatePF (env i) s.1.buf sn key id s.1.tmp
              let diffYears := now i - ki.creation.year
              if diffYears < 0 then Res.ok (⟨s.1.out, tmp, buf⟩, s.2)
              else do
                let (out, sum) ← accumulateAvg s.1.out s.2 tmp diffYears
                Res.ok (⟨out, tmp, buf⟩, sum)) (⟨out, tmp, buf⟩, sum)
          Res.ok ((s.1.out, s.1.tmp, s.2), s.1.buf)) := by
  induction n with
  | zero => simp [Prog.loop, Prog.run]
  | succ n ih =>
    rw [Prog.loop, run_bind, ih, forLoop_succ]
    simp only [bind_assoc]
    congr 1
    funext s
    simp only [ok_bind, avgBody]
    cases hk : idx db.keys n with
    | err m => simp [Prog.run]
    | crash m => simp [Prog.run]
    | ok ki =>
      simp only [ok_bind]
      cases hs : sel ki with
      | err m => simp [Prog.run]
      | crash m => simp [Prog.run]
      | ok id =>
        cases id with
        | none => simp [Prog.run]
        | some id =>
          simp only [ok_bind, Prog.run, bind_assoc]
          congr 1
          funext v
          split
          · simp
          · simp [bind_assoc]

/-- The handler with its calls executed at once is `answer`. -/
theorem handler_run (hash : List Byte → List Byte) (now : Nat → Int) (db : KeyDB) (n : Nat) (q : Msg) (buf : List Byte) :
    (handler hash now db n q).run env sn q.key buf = answer hash env now sn db n buf q := by
  have hc : ∀ sel, ((Prog.loop db.numColumns (countBody db sel) (List.replicate n 0, List.replicate n 0)).bind
      fun s => .ret (Res.ok s.1)).run env sn q.key buf = (do
        let s ← countLoop env sn db q.key sel ⟨List.replicate n 0, List.replicate n 0, buf⟩
        Res.ok (s.out, s.buf)) := by
    intro sel
    rw [run_bind, countLoop_run]
    simp only [bind_assoc, ok_bind, Prog.run]
    rfl
  unfold handler answer
  simp only
  split
  · generalize q.info.target = tg
    match tg with
    | 0 => exact hc _
    | 1 => exact hc _
    | 2 => exact hc _
    | t + 3 => rfl
  · split
    · exact hc _
    · split
      · rfl
      · split
        · rw [run_bind, avgLoop_run]
          simp only [bind_assoc, ok_bind, Prog.run]
          rfl
        · rfl

/-! ### Lengths -/

/-- All calls of the computation are about slices of length `n`, and what it returns satisfies `P`. -/
def Prog.Fits {α : Type} (n : Nat) (P : α → Prop) : Prog α → Prop
  | .ret r => ∀ a, r = Res.ok a → P a
  | .call _ _ out k => out.length = n ∧ ∀ v : List U32, v.length = n → (k v).Fits n P

theorem Fits.bind {α β : Type} {n : Nat} {P : α → Prop} {Q : β → Prop} {p : Prog α} {f : α → Prog β}
    (h : p.Fits n P) (hf : ∀ a, P a → (f a).Fits n Q) : (p.bind f).Fits n Q := by
  induction p with
  | ret r =>
    cases r with
    | ok a => exact hf a (h a rfl)
    | err m => intro a ha; cases ha
    | crash m => intro a ha; cases ha
  | call i x out k ih => exact ⟨h.1, fun v hv => ih v (h.2 v hv)⟩

theorem Fits.loop {σ : Type} {n : Nat} {P : σ → Prop} {N : Nat} {body : Nat → σ → Prog σ} {s : σ} (h0 : P s)
    (hb : ∀ i t, P t → (body i t).Fits n P) : (Prog.loop N body s).Fits n P := by
  induction N with
  | zero => intro a ha; cases ha; exact h0
  | succ N ih => exact Fits.bind ih (hb N)

theorem handler_fits (hash : List Byte → List Byte) (now : Nat → Int) (db : KeyDB) (n : Nat) (q : Msg) :
    (handler hash now db n q).Fits n (fun _ => True) := by
  have hc : ∀ sel, ((Prog.loop db.numColumns (countBody db sel) (List.replicate n 0, List.replicate n 0)).bind
      fun s => .ret (Res.ok s.1)).Fits n (fun _ => True) := by
    intro sel
    refine Fits.bind (P := fun s => s.2.length = n) (Fits.loop (by simp) ?_) (fun _ _ _ _ => trivial)
    intro i s hs
    unfold countBody
    split
    · intro a ha; cases ha; exact hs
    · refine ⟨hs, fun v hv a ha => ?_⟩
      obtain ⟨o, -, h⟩ := bind_eq_ok.mp ha
      cases h
      exact hv
    · intro a ha; cases ha
    · intro a ha; cases ha
  unfold handler
  simp only
  split
  · generalize q.info.target = tg
    match tg with
    | 0 => exact hc _
    | 1 => exact hc _
    | 2 => exact hc _
    | t + 3 => intro a ha; cases ha
  · split
    · exact hc _
    · split
      · intro a ha; cases ha
      · split
        · refine Fits.bind (P := fun s => s.2.1.length = n) (Fits.loop (by simp) ?_) (fun _ _ _ _ => trivial)
          intro i s hs
          unfold avgBody
          split
          · intro a ha; cases ha; exact hs
          · refine ⟨hs, fun v hv a ha => ?_⟩
            simp only at ha
            split at ha
            · cases ha
              exact hv
            · obtain ⟨o, -, h⟩ := bind_eq_ok.mp ha
              cases h
              exact hv
          · intro a ha; cases ha
          · intro a ha; cases ha
        · intro a ha; cases ha

theorem evalStep_seed {E : Cipher} {x : Bool} {cw s s' : List Byte} {t t' : Byte} (h : Fss.evalStep E x cw s t = Res.ok (s', t')) :
    s'.length = 16 := by
  unfold Fss.evalStep at h
  simp only [bind_eq_ok] at h
  obtain ⟨o, -, o', -, h⟩ := h
  have key : ∀ a b, b - a = 16 → ∀ {v : List Byte}, slice o' a b = Res.ok v → v.length = 16 := by
    intro a b hab v hv
    unfold slice at hv
    split at hv
    · cases hv
      simp
      omega
    · cases hv
  cases x
  · rw [if_pos (by decide)] at h
    obtain ⟨v, hv, h⟩ := bind_eq_ok.mp h
    obtain ⟨_, _, h⟩ := bind_eq_ok.mp h
    cases h
    exact key 0 16 rfl hv
  · rw [if_neg (by decide)] at h
    obtain ⟨v, hv, h⟩ := bind_eq_ok.mp h
    obtain ⟨_, _, h⟩ := bind_eq_ok.mp h
    cases h
    exact key 17 33 rfl hv

theorem evalPath_seed {E : Cipher} {k : Key} {x : List Bool} {s : List Byte} {t : Byte} (h : evalPath E k x = Res.ok (s, t)) :
    s.length = 16 := by
  unfold evalPath at h
  obtain ⟨s0, h0, h⟩ := bind_eq_ok.mp h
  refine forLoop_inv_ok (P := fun _ st => st.1.length = 16) ?_ ?_ h
  · unfold copyAt at h0
    rw [if_pos (Nat.zero_le _)] at h0
    cases h0
    simp
    omega
  · rintro i st ⟨s1, t1⟩ - - hb
    simp only [bind_eq_ok] at hb
    obtain ⟨_, _, _, _, hb⟩ := hb
    exact evalStep_seed hb

/-- The result of `EvaluatePF` does not depend on what the scratch buffer contains between two calls. -/
theorem evaluatePF_buf {env : Env} (hE : BlockCipher env.E) {n : Nat} (hn : n < 20) {b b' : List Byte} (hb : BufferReady n b)
    (hb' : BufferReady n b') (sn : Byte) (k : Key) (x : List Bool) (out : List U32) (ho : out.length = n) :
    evaluatePF env b sn k x out = evaluatePF env b' sn k x out := by
  unfold evaluatePF
  cases h : evalPath env.E k x with
  | err m => rfl
  | crash m => rfl
  | ok st =>
    obtain ⟨s, t⟩ := st
    have hs := evalPath_seed h
    have h1 := hb.1
    have h2 := hb'.1
    simp only [ok_bind]
    unfold convertBlock
    rw [List.length_replicate, ho, prf_eq hE hs (by omega) (by omega), prf_eq hE hs (by omega) (by omega), hb.2, hb'.2]

theorem evalOut_length {sn : Byte} {tmp fcw : List U32} {t : Byte} {out out' : List U32}
    (h : evalOut sn tmp fcw t out = Res.ok out') : out'.length = out.length := by
  unfold evalOut at h
  refine forLoop_inv_ok (P := fun _ (v : List U32) => v.length = out.length) rfl ?_ h
  intro i v v' _ hv hb
  have hset : ∀ {a b : List U32} {j : Nat} {w : U32}, setAt a j w = Res.ok b → b.length = a.length := by
    intro a b j w hs
    unfold setAt at hs
    split at hs
    · cases hs; simp
    · cases hs
  simp only [bind_eq_ok] at hb
  obtain ⟨_, _, _, _, hb⟩ := hb
  split at hb
  · rw [hset hb, hv]
  · rw [hset hb, hv]

/-- `EvaluatePF` leaves the buffer ready and keeps the length of its slice. -/
theorem evaluatePF_ready {env : Env} (hE : BlockCipher env.E) {n : Nat} (hn : n < 20) {b b' : List Byte} (hb : BufferReady n b)
    {sn : Byte} {k : Key} {x : List Bool} {out out' : List U32} (ho : out.length = n)
    (h : evaluatePF env b sn k x out = Res.ok (out', b')) : BufferReady n b' ∧ out'.length = n := by
  subst ho
  constructor
  · have := eval_sim (env := env) (sn := sn) (k := k) hE (x := x) hn (m := newMem out.length)
      ⟨by simp [newMem], initFss_ok _⟩ hb
    rw [h] at this
    obtain ⟨c, -, -, h2⟩ := this
    exact h2
  · unfold evaluatePF at h
    simp only [bind_eq_ok] at h
    obtain ⟨_, _, _, _, o, h1, h2⟩ := h
    cases h2
    exact evalOut_length h1

/-- What a computation returns if its calls are executed at once. -/
def Prog.val {α : Type} (env : Nat → Env) (sn : Byte) (key : Key) (n : Nat) (p : Prog α) : Res α :=
  do let (a, _) ← p.run env sn key (initFss n); Res.ok a

theorem run_val {α : Type} {n : Nat} (hn : n < 20) (hE : ∀ i, BlockCipher (env i).E) {P : α → Prop} {p : Prog α}
    (hp : p.Fits n P) : ∀ {buf : List Byte}, BufferReady n buf →
      (do let (a, _) ← p.run env sn key buf; Res.ok a) = p.val env sn key n ∧
      ∀ a buf', p.run env sn key buf = Res.ok (a, buf') → BufferReady n buf' := by
  induction p with
  | ret r =>
    intro buf hb
    constructor
    · unfold Prog.val
      cases r <;> simp [Prog.run]
    · intro a buf' h
      cases r <;> simp [Prog.run] at h
      rw [← h.2]; exact hb
  | call i x out k ih =>
    intro buf hb
    obtain ⟨ho, hk⟩ := hp
    unfold Prog.val
    simp only [Prog.run]
    rw [evaluatePF_buf (hE i) hn (initFss_ok n) hb sn key x out ho]
    cases h : evaluatePF (env i) buf sn key x out with
    | err m => simp
    | crash m => simp
    | ok r =>
      obtain ⟨tmp, b'⟩ := r
      obtain ⟨h1, h2⟩ := evaluatePF_ready (hE i) hn hb ho h
      simp only [ok_bind]
      exact ⟨trivial, fun a buf' => (ih tmp (hk tmp h2) h1).2 a buf'⟩

theorem val_call {α : Type} {n : Nat} (hn : n < 20) (hE : ∀ i, BlockCipher (env i).E) {P : α → Prop} {i : Nat}
    {x : List Bool} {out : List U32} {k : List U32 → Prog α} (hp : (Prog.call i x out k).Fits n P) :
    (Prog.call i x out k).val env sn key n =
      (do let (tmp, _) ← evaluatePF (env i) (initFss n) sn key x out; (k tmp).val env sn key n) := by
  unfold Prog.val
  simp only [Prog.run]
  cases h : evaluatePF (env i) (initFss n) sn key x out with
  | err m => simp
  | crash m => simp
  | ok r =>
    obtain ⟨tmp, b'⟩ := r
    obtain ⟨h1, h2⟩ := evaluatePF_ready (hE i) hn (initFss_ok n) hp.1 h
    simp only [ok_bind]
    have := (run_val (sn := sn) (key := key) hn hE (hp.2 tmp h2) h1).1
    exact this

theorem val_ret {α : Type} {n : Nat} (r : Res α) : (Prog.ret r).val env sn key n = r := by
  unfold Prog.val
  cases r <;> simp [Prog.run]

/-! ### Determinism -/

theorem goes_split {env : Env} {c d d' : Cfg} (h : Goes env sn key c d) (h' : Goes env sn key c d')
    (hd : ∀ e m, evalStep env sn key d.1 d.2 ≠ Res.ok (.go e, m)) : Goes env sn key d' d := by
  induction h using Relation.ReflTransGen.head_induction_on with
  | refl =>
    cases h'.cases_head with
    | inl h => rw [h]; exact .refl
    | inr h =>
      obtain ⟨f, hf, -⟩ := h
      exact absurd hf (hd _ _)
  | head hcf hfd ih =>
    rename_i c f
    cases h'.cases_head with
    | inl h => rw [← h]; exact .head hcf hfd
    | inr h =>
      obtain ⟨g, hg, hgd⟩ := h
      have : f = g := by
        unfold Step at hcf hg
        rw [hcf] at hg
        simp only [Res.ok.injEq, Prod.mk.injEq, Next.go.injEq] at hg
        exact Prod.ext hg.1 hg.2
      subst this
      exact ih hgd

theorem goes_stop {env : Env} {c d : Cfg} (h : Goes env sn key c d)
    (hc : ∀ e m, evalStep env sn key c.1 c.2 ≠ Res.ok (.go e, m)) : d = c := by
  cases h.cases_head with
  | inl h => exact h.symm
  | inr h =>
    obtain ⟨f, hf, -⟩ := h
    exact absurd hf (hc _ _)

/-- After a step a call is not at its beginning. -/
theorem step_inside {env : Env} {e e' : Eval} {m m' : Mem} (h : evalStep env sn key e m = Res.ok (.go e', m')) :
    ¬ (e'.pc = .level ∧ e'.i = 0) := by
  rintro ⟨h1, h2⟩
  cases hp : e.pc <;> simp only [evalStep, hp] at h
  case level => split at h <;> (cases h; cases h1)
  case encrypt j =>
    split at h
    · split at h
      · cases h
      · split at h
        · cases h
        · cases h; cases h1
    · cases h; cases h1
  case mix j =>
    obtain ⟨_, _, h⟩ := bind_eq_ok.mp h
    obtain ⟨_, _, h⟩ := bind_eq_ok.mp h
    cases h; cases h1
  case correct j c =>
    split at h
    · obtain ⟨_, _, h⟩ := bind_eq_ok.mp h
      obtain ⟨_, _, h⟩ := bind_eq_ok.mp h
      obtain ⟨_, _, h⟩ := bind_eq_ok.mp h
      obtain ⟨_, _, h⟩ := bind_eq_ok.mp h
      cases h; cases h1
    · cases h; cases h1
  case pick =>
    obtain ⟨_, _, h⟩ := bind_eq_ok.mp h
    obtain ⟨_, _, h⟩ := bind_eq_ok.mp h
    obtain ⟨_, _, h⟩ := bind_eq_ok.mp h
    cases h
    exact absurd h2 (Nat.succ_ne_zero _)
  case encryptFinal j =>
    split at h
    · split at h
      · cases h
      · split at h
        · cases h
        · cases h; cases h1
    · cases h; cases h1
  case mixFinal j =>
    obtain ⟨_, _, h⟩ := bind_eq_ok.mp h
    obtain ⟨_, _, h⟩ := bind_eq_ok.mp h
    cases h; cases h1
  case elem j =>
    split at h
    · obtain ⟨_, _, h⟩ := bind_eq_ok.mp h
      obtain ⟨_, _, h⟩ := bind_eq_ok.mp h
      obtain ⟨_, _, h⟩ := bind_eq_ok.mp h
      obtain ⟨_, _, h⟩ := bind_eq_ok.mp h
      cases h; cases h1
    · cases h; cases h1
  case finish =>
    obtain ⟨_, _, h⟩ := bind_eq_ok.mp h
    cases h

/-! ### Schedules under which calls do not overlap -/

/-- The result of a call that is alone. -/
theorem eval_alone {env : Env} (hE : BlockCipher env.E) {n : Nat} (hn : n < 20) {x : List Bool} {out : List U32}
    (ho : out.length = n) {m0 m : Mem} (hm : MemOk n m0) {e : Eval}
    (hg : Goes env sn key (Eval.start key x out, m0) (e, m)) :
    match evalStep env sn key e m with
    | .ok (.go _, _) => True
    | .ok (.done out', m') => (∃ b, evaluatePF env (initFss n) sn key x out = Res.ok (out', b)) ∧ m' = m ∧ MemOk n m
    | .err _ => False
    | .crash _ => (evaluatePF env (initFss n) sn key x out).isCrash := by
  subst ho
  have hsim := eval_sim (env := env) (sn := sn) (k := key) hE (x := x) hn hm (initFss_ok _)
  by_cases hgo : ∃ e' m', evalStep env sn key e m = Res.ok (.go e', m')
  · obtain ⟨e', m', h⟩ := hgo
    rw [h]
    trivial
  have hgo' : ∀ e' m', evalStep env sn key (e, m).1 (e, m).2 ≠ Res.ok (.go e', m') := by
    intro e' m' h
    exact hgo ⟨e', m', h⟩
  cases hev : evaluatePF env (initFss out.length) sn key x out with
  | err msg => rw [hev] at hsim; exact hsim.elim
  | ok r =>
    rw [hev] at hsim
    obtain ⟨d, h1, ⟨h2, h3⟩, h4⟩ := hsim
    have : d = (e, m) := goes_stop (goes_split h1 hg (by intro e' m' h; rw [h3] at h; cases h)) hgo'
    subst this
    simp only at h3
    rw [h3]
    exact ⟨⟨_, rfl⟩, rfl, h2⟩
  | crash msg =>
    rw [hev] at hsim
    obtain ⟨d, msg', h1, h2⟩ := hsim
    have : d = (e, m) := goes_stop (goes_split h1 hg (by intro e' m' h; rw [h2] at h; cases h)) hgo'
    subst this
    simp only at h2
    rw [h2]
    simp

/-- The goroutine is on its way to the outcome `R`. -/
def Good (n : Nat) (sn : Byte) (r : Request) (R : Res (List U32)) (m : Mem) : Thread → Prop
  | .returned a => Same a R
  | .running i e k => ∃ x out, (Prog.call i x out k).Fits n (fun _ => True) ∧
      R = (Prog.call i x out k).val r.env sn r.msg.key n ∧
      (e = Eval.start r.msg.key x out ∨ (¬ (e.pc = .level ∧ e.i = 0) ∧
        ∃ m0, MemOk n m0 ∧ Goes (r.env i) sn r.msg.key (Eval.start r.msg.key x out, m0) (e, m)))

theorem good_enter {n : Nat} {r : Request} {R : Res (List U32)} {m : Mem} {p : Prog (List U32)}
    (hp : p.Fits n (fun _ => True)) (hR : R = p.val r.env sn r.msg.key n) :
    Good n sn r R m (enter r.msg.key p) ∧ Outside (enter r.msg.key p) := by
  cases p with
  | ret a =>
    rw [val_ret] at hR
    exact ⟨Or.inl hR.symm, trivial⟩
  | call i x out k => exact ⟨⟨x, out, hp, hR, Or.inl rfl⟩, rfl, rfl⟩

theorem good_outside {n : Nat} {r : Request} {R : Res (List U32)} {m m' : Mem} {t : Thread} (h : Good n sn r R m t)
    (ho : Outside t) : Good n sn r R m' t := by
  cases t with
  | returned a => exact h
  | running i e k =>
    obtain ⟨x, out, h1, h2, h3 | ⟨h3, -⟩⟩ := h
    · exact ⟨x, out, h1, h2, Or.inl h3⟩
    · exact absurd ho h3

/-- The invariant of schedules under which calls do not overlap. -/
structure Inv (S : Server) (s : State) : Prop where
  good : ∀ (j : Nat) (r : Request) (t : Thread), s.threads[j]? = some (r, t) → Ciphers r ∧
    Good S.n S.sn r ((handler S.hash r.now S.db S.n r.msg).val r.env S.sn r.msg.key S.n) s.mem t
  rest : s.dead = false → (∀ (j : Nat) (r : Request) (t : Thread), s.threads[j]? = some (r, t) → Outside t) →
    MemOk S.n s.mem

theorem inv_init {S : Server} {m : Mem} (hm : MemOk S.n m) {rs : List Request} (hc : ∀ r ∈ rs, Ciphers r) :
    Inv S (S.init m rs) := by
  constructor
  · intro j r t h
    simp only [Server.init, List.getElem?_map, Option.map_eq_some_iff, Prod.mk.injEq] at h
    obtain ⟨r', h1, rfl, rfl⟩ := h
    exact ⟨hc _ (List.mem_of_getElem? h1), (good_enter (handler_fits _ _ _ _ _) rfl).1⟩
  · intro _ _
    exact hm

theorem dead_set {s : State} {i : Nat} {r : Request} {t : Thread} {m : Mem} (hi : i < s.threads.length)
    (ht : t.panicked = true) : (⟨s.threads.set i (r, t), m⟩ : State).dead = true := by
  unfold State.dead
  rw [List.any_eq_true]
  exact ⟨(r, t), List.mem_iff_getElem.mpr ⟨i, by simpa using hi, by simp⟩, ht⟩

theorem inv_step {S : Server} (hn : S.n < 20) {s : State} (h : Inv S s) {i : Nat}
    (ho : ∀ (j : Nat) (r : Request) (t : Thread), j ≠ i → s.threads[j]? = some (r, t) → Outside t) :
    Inv S (S.step i s) := by
  unfold Server.step
  cases hd : s.dead with
  | true => simpa using h
  | false =>
  simp only [Bool.false_eq_true, if_false]
  cases hi : s.threads[i]? with
  | none => exact h
  | some rt =>
    obtain ⟨r, t⟩ := rt
    simp only
    obtain ⟨hc, hg⟩ := h.good i r t hi
    have hil := (List.getElem?_eq_some_iff.mp hi).1
    have others : ∀ {t' : Thread} {m' : Mem} {j : Nat} {r' : Request} {t'' : Thread}, j ≠ i →
        (s.threads.set i (r, t'))[j]? = some (r', t'') → s.threads[j]? = some (r', t'') := by
      intro t' m' j r' t'' hj h'
      rwa [List.getElem?_set_ne (Ne.symm hj)] at h'
    have self : ∀ {t' : Thread} {r' : Request} {t'' : Thread},
        (s.threads.set i (r, t'))[i]? = some (r', t'') → r' = r ∧ t'' = t' := by
      intro t' r' t'' h'
      rw [List.getElem?_set_self hil] at h'
      simp only [Option.some.injEq, Prod.mk.injEq] at h'
      exact ⟨h'.1.symm, h'.2.symm⟩
    -- it suffices to look at goroutine `i`
    have build : ∀ {t' : Thread} {m' : Mem}, Good S.n S.sn r
        ((handler S.hash r.now S.db S.n r.msg).val r.env S.sn r.msg.key S.n) m' t' →
        (t'.panicked = false → Outside t' → MemOk S.n m') → Inv S ⟨s.threads.set i (r, t'), m'⟩ := by
      intro t' m' h1 h2
      constructor
      · intro j r' t'' hj
        by_cases hji : j = i
        · subst hji
          obtain ⟨rfl, rfl⟩ := self hj
          exact ⟨hc, h1⟩
        · have := others (m' := m') hji hj
          obtain ⟨h3, h4⟩ := h.good j r' t'' this
          exact ⟨h3, good_outside h4 (ho j r' t'' hji this)⟩
      · intro hd' hout
        refine h2 ?_ (hout i r t' (List.getElem?_set_self hil))
        by_contra hp
        have := dead_set (s := s) (r := r) (m := m') hil (by simpa using hp : t'.panicked = true)
        rw [this] at hd'
        cases hd'
    cases t with
    | returned a =>
      simp only [threadStep]
      refine build hg fun _ _ => ?_
      refine h.rest hd fun j r' t' hj => ?_
      by_cases hji : j = i
      · subst hji
        rw [hi] at hj
        simp only [Option.some.injEq, Prod.mk.injEq] at hj
        rw [← hj.2]
        trivial
      · exact ho j r' t' hji hj
    | running b e k =>
      obtain ⟨x, out, hfit, hR, hwhere⟩ := hg
      -- the call has run alone so far
      obtain ⟨m0, hm0, hgoes⟩ : ∃ m0, MemOk S.n m0 ∧
          Goes (r.env b) S.sn r.msg.key (Eval.start r.msg.key x out, m0) (e, s.mem) := by
        rcases hwhere with rfl | ⟨-, h'⟩
        · refine ⟨s.mem, h.rest hd fun j r' t' hj => ?_, .refl⟩
          by_cases hji : j = i
          · subst hji
            rw [hi] at hj
            simp only [Option.some.injEq, Prod.mk.injEq] at hj
            rw [← hj.2]
            exact ⟨rfl, rfl⟩
          · exact ho j r' t' hji hj
        · exact h'
      have hal := eval_alone (sn := S.sn) (key := r.msg.key) (hc b) hn hfit.1 hm0 hgoes
      have hval := val_call (sn := S.sn) (key := r.msg.key) hn hc hfit
      simp only [threadStep]
      cases hst : evalStep (r.env b) S.sn r.msg.key e s.mem with
      | err msg => rw [hst] at hal; exact hal.elim
      | crash msg =>
        rw [hst] at hal
        simp only at hal ⊢
        refine build (Or.inr ⟨by simp, ?_⟩) (by intro h'; cases h')
        rw [hR, hval]
        cases hev : evaluatePF (r.env b) (initFss S.n) S.sn r.msg.key x out with
        | ok v => rw [hev] at hal; simp at hal
        | err m => rw [hev] at hal; simp at hal
        | crash m => simp
      | ok nx =>
        obtain ⟨nx, m'⟩ := nx
        cases nx with
        | go e' =>
          simp only
          have hin := step_inside hst
          refine build ⟨x, out, hfit, hR, Or.inr ⟨hin, m0, hm0, hgoes.tail hst⟩⟩ (fun _ h' => absurd h' hin)
        | done out' =>
          rw [hst] at hal
          simp only at hal ⊢
          obtain ⟨⟨b', hev⟩, rfl, hm⟩ := hal
          have hlen := (evaluatePF_ready (hc b) hn (initFss_ok S.n) hfit.1 hev).2
          refine build (good_enter (hfit.2 out' hlen) ?_).1 (fun _ _ => hm)
          rw [hR, hval, hev]
          rfl

theorem inv_run {S : Server} (hn : S.n < 20) : ∀ (sched : List Nat) {s : State}, Inv S s → Apart S sched s →
    Inv S (S.run sched s) := by
  intro sched
  induction sched with
  | nil => intro s h _; exact h
  | cons i is ih =>
    intro s h ha
    exact ih (inv_step hn h ha.1) ha.2

theorem val_alone {S : Server} (hn : S.n < 20) {r : Request} (hc : Ciphers r) {buf : List Byte} (hb : BufferReady S.n buf) :
    (handler S.hash r.now S.db S.n r.msg).val r.env S.sn r.msg.key S.n = S.alone buf r := by
  rw [← (run_val (sn := S.sn) (key := r.msg.key) hn hc (handler_fits S.hash r.now S.db S.n r.msg) hb).1, handler_run]
  rfl

end Verif.Shared
