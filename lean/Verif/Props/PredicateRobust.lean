import Verif.Lemmas.PredicateRun

/-! # C12 (predicate part), C55: malformed answers and queries -/

set_option linter.unusedSimpArgs false

namespace Verif.Predicate
open Res Verif.Field Verif.Field.Spec Verif.Fss Verif.Fss.Spec Verif.Query Verif.Rand Verif.Predicate.Spec

/-- C12 (predicate part): answers of the expected length never make the client panic on a counting query. Missing:
answers of other lengths, see `C12_predicate_empty_answer_crashes`. -/
theorem C12_predicate_right_length_partial (ex : Nat) (st : State) (a0 a1 : List U32) (hex : 0 < ex)
    (hst : st.alphas.length = ex) (h0 : a0.length = ex) (h1 : a1.length = ex) :
    ¬ (reconstruct ex st [a0, a1]).isCrash := by
  rw [reconstruct_count_eq hex hst h0 h1]
  split <;> simp

example : ∃ r, reconstruct 1 ⟨[0], [1]⟩ [[3], [4]] = ok r := ⟨7, by decide⟩

/-- C12 (predicate part): a server that answers with an empty byte string makes the client panic, whatever the other
server answers. -/
theorem C12_predicate_empty_answer_crashes (ex : Nat) (st : State) (a0 : List U32) (hex : 0 < ex) :
    (reconstruct ex st [a0, []]).isCrash := by
  unfold reconstruct
  rw [idx_cons_zero, show idx [a0, ([] : List U32)] 1 = ok [] from rfl]
  simp only [ok_bind]
  split
  · rename_i h
    rw [slice_of_le (l := a0) (by omega) (by omega)]
    simp only [ok_bind]
    have : slice ([] : List U32) 0 ex = crash "slice bounds out of range" := by
      unfold slice
      rw [if_neg (by simp; omega)]
    rw [this]
    simp
  · cases h : idx a0 0 with
    | ok v => simp [idx]
    | crash m => simp
    | err m => simp [idx] at h; split at h <;> simp at h

/-- C55, full statement: a server answers or rejects every query message; it does not panic. -/
def C55_Statement : Prop :=
  ∀ (hash : List Byte → List Byte) (env : Nat → Env) (now : Nat → Int) (sn : Byte) (db : KeyDB) (n : Nat)
    (buf : List Byte) (m : Msg), (∀ e, (hash e).length = 32) → (∀ i, BlockCipher (env i).E) → Loaded db →
    BufferReady n buf → ¬ (answer hash env now sn db n buf m).isCrash

/-- C55: every query with an unknown target or an unsupported combination of flags makes the server panic, whatever
its database and the rest of the query. -/
theorem C55_unsupported_queries_crash (hash : List Byte → List Byte) (env : Nat → Env) (now : Nat → Int) (sn : Byte)
    (db : KeyDB) (n : Nat) (buf : List Byte) (m : Msg)
    (h : m.info.sum = true ∨ (m.info.avg = true ∧ m.info.and = false) ∨
      (m.info.and = false ∧ m.info.avg = false ∧ 2 < m.info.target)) :
    (answer hash env now sn db n buf m).isCrash := by
  obtain ⟨⟨target, fs, fe, and, avg, sum⟩, key⟩ := m
  simp only at h
  unfold answer
  rcases h with rfl | ⟨rfl, rfl⟩ | ⟨rfl, rfl, ht⟩
  · cases and <;> cases avg <;> simp
  · cases sum <;> simp
  · cases sum
    · simp only [Bool.not_false, Bool.and_self, if_true]
      obtain ⟨t, rfl⟩ : ∃ t, target = t + 3 := ⟨target - 3, by omega⟩
      simp
    · simp

/-- C55 is false: one message from any client stops the server. -/
theorem C55_refuted : ¬ C55_Statement := by
  intro H
  refine H (fun _ => List.replicate 32 0) (fun _ => ⟨parityCipher, fun _ => 0, 0⟩) (fun _ => 0) 0 ⟨0, []⟩ 1 (initFss 1)
    ⟨⟨0, 0, 0, false, false, true⟩, ⟨[], 0, [], []⟩⟩ (by simp) (fun _ => parityCipher_block) rfl (initFss_ok 1) ?_
  exact C55_unsupported_queries_crash _ _ _ _ _ _ _ _ (Or.inl rfl)

/-- Evaluating a key without correction words at a non-empty input panics. -/
theorem evaluate_nil_crash (env : Env) (buf : List Byte) (sn : Byte) (k : Key) (x : List Bool) (out : List U32)
    (hk : k.cw = []) (hx : x ≠ []) : (evaluatePF env buf sn k x out).isCrash := by
  obtain ⟨b, l, rfl⟩ := List.exists_cons_of_ne_nil hx
  have h1 : (evalPath env.E k (b :: l)).isCrash := by
    unfold evalPath
    unfold copyAt
    rw [if_pos (Nat.zero_le _)]
    simp only [ok_bind, List.length_cons]
    rw [forLoop_succ']
    simp [hk, idx, maxBits]
  unfold evaluatePF
  cases he : evalPath env.E k (b :: l) with
  | ok v => rw [he] at h1; simp at h1
  | err m => rw [he] at h1; simp at h1
  | crash m => simp

theorem forLoop_crash {σ : Type _} {n i : Nat} {body : Nat → σ → Res σ} {s t : σ} (hi : i < n)
    (h : forLoop i body s = ok t) (hc : (body i t).isCrash) : (forLoop n body s).isCrash := by
  obtain ⟨d, rfl⟩ : ∃ d, n = i + 1 + d := ⟨n - i - 1, by omega⟩
  rw [forLoop_append, forLoop_succ, h]
  simp only [ok_bind]
  cases hb : body i t with
  | ok v => rw [hb] at hc; simp at hc
  | err m => rw [hb] at hc; simp at hc
  | crash m => simp

/-- C55: an ordinary client stops both servers when its user types a text shorter than the requested prefix: the
client sends keys of depth 0, and a server panics at the first e-mail that is long enough. -/
theorem C55_short_text_crashes_servers (W : World) (ex : Nat) (db : KeyDB) (i : Info)
    (text : List Byte) (n : Nat) (q : ClientFSS) (ms : List Msg) (st : State) (rnd' : Prg) (buf' : List Byte)
    (ht : i.target = 0) (hand : i.and = false) (havg : i.avg = false) (hsum : i.sum = false)
    (hn : i.fromStart = n) (htext : text.length < n) (hq : toEmailClientFSS W.hash i text = ok q)
    (hms : query W.env W.fuel ex W.rnd W.buf W.r1 W.r2 q 2 = ok (ms, st, rnd', buf')) (hdb : Loaded db)
    (hkey : ∃ ki ∈ db.keys, n ≤ ki.email.length) (sn : Byte) (m : Msg) (hm : m ∈ ms) :
    (W.serve sn ex db m).isCrash := by
  have hn0 : 0 < n := by omega
  unfold toEmailClientFSS at hq
  rw [idForEmail_prefix hn0 hn, if_neg (by omega)] at hq
  simp only [ok_bind, ok.injEq, orNil, Option.getD_none] at hq
  subst hq
  have hmk : m.info = i ∧ m.key.cw = [] := by
    unfold query at hms
    rw [if_neg (by simp)] at hms
    simp only [bind_eq_ok] at hms
    obtain ⟨⟨st', rnd2⟩, hd, ⟨k0, k1, b2⟩, hg, he⟩ := hms
    simp only [ok.injEq, Prod.mk.injEq] at he hg
    obtain ⟨rfl, -⟩ := he
    unfold generateTreePF genLoop at hg
    simp only [List.length_nil, forLoop, bind_eq_ok] at hg
    obtain ⟨_, _, _, _, _, _, _, _, g, hg', hg⟩ := hg
    simp only [ok.injEq] at hg'
    subst hg'
    simp only [bind_eq_ok] at hg
    obtain ⟨_, _, _, _, _, _, hg⟩ := hg
    simp only [ok.injEq, Prod.mk.injEq] at hg
    obtain ⟨rfl, rfl, -⟩ := hg
    simp only [List.mem_cons, List.not_mem_nil, or_false] at hm
    rcases hm with rfl | rfl <;> exact ⟨rfl, rfl⟩
  obtain ⟨hmi, hcw⟩ := hmk
  -- the first key that is long enough
  have hex : ∃ j, ∃ h : j < db.keys.length, n ≤ db.keys[j].email.length := by
    obtain ⟨ki, hki, hl⟩ := hkey
    obtain ⟨j, hj, rfl⟩ := List.getElem_of_mem hki
    exact ⟨j, hj, hl⟩
  classical
  obtain ⟨hj, hjl⟩ := Nat.find_spec hex
  have hmin := fun {j'} => Nat.find_min hex (m := j')
  set j := Nat.find hex
  have hans : ∀ (env : Nat → Env) (now : Nat → Int) (sn : Byte) (buf : List Byte),
      (answer W.hash env now sn db ex buf m).isCrash := by
    intro env now sn buf
    rw [answer_count (by rw [hmi]; exact havg) (by rw [hmi]; exact hsum) (Or.inr (by rw [hmi, ht]; omega)), hmi]
    have hid : ∀ ki : KeyInfo, keyId W.hash i ki =
        ok (if n ≤ ki.email.length then some ((ki.email.take n).flatMap Utils.bits8) else none) := by
      intro ki
      simp only [keyId, hand, ht, Bool.false_and, Bool.false_eq_true, if_false, if_true]
      exact idForEmail_prefix hn0 hn ki.email
    have hc : (countLoop env sn db m.key (keyId W.hash i)
        ⟨List.replicate ex 0, List.replicate ex 0, buf⟩).isCrash := by
      unfold countLoop
      refine forLoop_crash (i := j) (t := ⟨List.replicate ex 0, List.replicate ex 0, buf⟩)
        (by unfold Loaded at hdb; omega) ?_ ?_
      · refine Exists.elim (forLoop_inv
          (fun _ s => s = (⟨List.replicate ex 0, List.replicate ex 0, buf⟩ : Acc)) rfl ?_)
          (fun s hs => by obtain ⟨h1, h2⟩ := hs; rw [h2] at h1; exact h1)
        rintro j' s hj' rfl
        have hlt : j' < db.keys.length := by omega
        have := hmin hj'
        have hshort : ¬ n ≤ db.keys[j'].email.length := fun hh => this ⟨hlt, hh⟩
        rw [idx_of_lt hlt]
        simp only [ok_bind, hid]
        rw [if_neg hshort]
        exact ⟨_, rfl, rfl⟩
      · rw [idx_of_lt hj]
        simp only [ok_bind, hid]
        rw [if_pos hjl]
        simp only
        have hcr := evaluate_nil_crash (env j) buf sn m.key ((db.keys[j].email.take n).flatMap Utils.bits8)
          (List.replicate ex 0) hcw (by
            intro h0
            have := congrArg List.length h0
            rw [bits_length, List.length_take, Nat.min_eq_left hjl] at this
            simp at this
            omega)
        revert hcr
        cases evaluatePF (env j) buf sn m.key ((db.keys[j].email.take n).flatMap Utils.bits8)
          (List.replicate ex 0) <;> simp
    revert hc
    cases countLoop env sn db m.key (keyId W.hash i) ⟨List.replicate ex 0, List.replicate ex 0, buf⟩ <;> simp
  unfold World.serve
  split
  · have := hans W.env0 W.now0 0 W.buf0
    revert this
    cases answer W.hash W.env0 W.now0 0 db ex W.buf0 m <;> simp
  · have := hans W.env1 W.now1 sn W.buf1
    revert this
    cases answer W.hash W.env1 W.now1 sn db ex W.buf1 m <;> simp

/-- The query of the theorem exists: a two-byte text with `FromStart` = 3. -/
example : ∃ q, toEmailClientFSS (fun _ => []) ⟨0, 3, 0, false, false, false⟩ [1, 2] = ok q :=
  ⟨_, by unfold toEmailClientFSS; rw [idForEmail_prefix (n := 3) (by omega) rfl]; rfl⟩

/-- C55: if the creation date of one key cannot be marshalled, no query about creation dates is answered. -/
theorem C55_odd_date_no_answer (hash : List Byte → List Byte) (env : Nat → Env) (now : Nat → Int) (sn : Byte)
    (db : KeyDB) (hdb : Loaded db) (n : Nat) (buf : List Byte) (m : Msg) (ki : KeyInfo) (hki : ki ∈ db.keys) (e : String)
    (hbin : ki.creation.bin = err e) (ht : m.info.target = 1) (h1 : m.info.and = false) (h2 : m.info.avg = false)
    (h3 : m.info.sum = false) : ¬ ∃ a, answer hash env now sn db n buf m = ok a := by
  rintro ⟨a, ha⟩
  unfold answer at ha
  simp only [h1, h2, h3, ht, Bool.not_false, Bool.and_self, if_true] at ha
  rw [bind_eq_ok] at ha
  obtain ⟨s, hs, -⟩ := ha
  obtain ⟨i, hi, hget⟩ := List.getElem_of_mem hki
  have hlen : db.numColumns = db.keys.length := hdb
  have hall := forLoop_inv_ok (fun j (_ : Acc) => ∀ i (h : i < db.keys.length), i < j → ∃ id, selCreation db.keys[i] = ok id)
    (fun i _ h => by omega) (by
      intro j t t' hj hP hb i h hij
      by_cases hlt : i < j
      · exact hP i h hlt
      · have : i = j := by omega
        subst this
        rw [bind_eq_ok] at hb
        obtain ⟨k, hk, hb⟩ := hb
        rw [idx_of_lt h] at hk
        rw [bind_eq_ok] at hb
        obtain ⟨id, hid, -⟩ := hb
        rw [← ok.inj hk] at hid
        exact ⟨id, hid⟩) hs
  obtain ⟨id, hid⟩ := hall i hi (by omega)
  rw [hget] at hid
  unfold selCreation idForCreationTime at hid
  rw [hbin] at hid
  simp at hid

example : ¬ ∃ a, answer id (fun _ => ⟨parityCipher, fun _ => 0, 0⟩) (fun _ => 0) 0
    ⟨1, [⟨[], ⟨0, err "Time.MarshalBinary: zone offset has fractional minute"⟩, 1⟩]⟩ 1 (initFss 1)
    ⟨⟨1, 0, 0, false, false, false⟩, ⟨[], 0, [], []⟩⟩ = ok a :=
  C55_odd_date_no_answer _ _ _ _ _ (show Loaded ⟨1, [_]⟩ from rfl) _ _ _
    ⟨[], ⟨0, err "Time.MarshalBinary: zone offset has fractional minute"⟩, 1⟩ (by simp) _ rfl rfl rfl rfl rfl

end Verif.Predicate
