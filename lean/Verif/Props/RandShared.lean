import Verif.Lemmas.RandShared
import Mathlib.Data.Fintype.BigOperators

/-! # C79: goroutines that draw random numbers at the same time -/

namespace Verif.RandShared
open Verif.Rand Verif.Rand.Spec Spec

/-- C79: in every schedule of any number of goroutines, what the goroutines were told is explained by draws that use the
stream of the generator one after the other, without gap or overlap, each returning the first attempt that yields a
number; and as long as a goroutine has calls to make, some goroutine can go on. -/
def C79_Statement : Prop :=
  ∀ (ks : Nat → Byte) (size : Nat) (progs : List (List Call)), 16 ≤ size → (∀ p ∈ progs, ∀ c ∈ p, Small size c) →
    ∀ s, Reach (init ks size progs) s →
      Explained (served ks size) progs s ∧ (¬ Finished s → ∃ s', Step s s')

/-- C79: the numbers drawn, for every schedule and every program of the goroutines. -/
theorem C79_draws (ks : Nat → Byte) (size : Nat) (hsz : 16 ≤ size) (progs : List (List Call))
    (hsmall : ∀ p ∈ progs, ∀ c ∈ p, Small size c) (s : State) (h : Reach (init ks size progs) s) :
    Explained (served ks size) progs s := by
  obtain ⟨ds, hg⟩ := good_reach hsz hsmall h
  exact good_explained hg

/-- Requests for 64 bits, for 63 bits, for a number below 300, and a `Seed`, at the buffer size of lib/utils/rand.go:39. -/
example : (16 : Nat) ≤ 8192 ∧ ∀ p ∈ [[Call.u64, .int 300], [.i63, .int 1, .seed], []], ∀ c ∈ p, Small 8192 c := by
  have h : Nat.clog 256 300 ≤ 2 := (Nat.clog_le_iff_le_pow (by omega)).2 (by norm_num)
  refine ⟨by omega, ?_⟩
  simp [Small, width]
  omega

theorem Spec.play_reach {s s₀ s' : State} {is : List Nat} (h : Reach s₀ s) (hp : play s is = some s') : Reach s₀ s' := by
  induction is generalizing s with
  | nil =>
    simp only [play, Option.some.injEq] at hp
    exact hp ▸ h
  | cons i is ih =>
    simp only [play, Option.bind_eq_some_iff] at hp
    obtain ⟨s1, h1, h2⟩ := hp
    exact ih (.step h ⟨i, h1⟩) h2

/-- A schedule: goroutine 1 begins a draw, goroutine 0 waits; goroutine 0's number below 3 needs two attempts, because
the first byte, masked to two bits, is 3. -/
example : ∃ s, Reach (init (fun i => if i = 8 then 7 else 1) 16 [[.int 3], [.u64, .seed]]) s ∧ Finished s ∧
    s.threads.map (·.replies) = [[.value 1], [.value 0x0101010101010101, .panic]] := by
  refine ⟨_, play_reach .start (is := [1, 1, 1, 1, 1, 0, 0, 0, 0, 0, 0]) rfl, ?_, by decide +kernel⟩
  unfold Finished
  decide +kernel

/-- C79: a goroutine waits while another is in a draw. -/
example : ∃ s, Reach (init (fun _ => 1) 16 [[.u64], [.u64]]) s ∧ next s 0 = none ∧ (next s 1).isSome := by
  exact ⟨_, play_reach .start (is := [1]) rfl, by decide +kernel, by decide +kernel⟩

theorem Spec.attempt_lt {c : Call} {stream : Nat → Byte} {p v : Nat} (h : attempt c (segment stream p (width c)) = some v) :
    v < bound c := by
  cases c with
  | seed => simp [attempt] at h
  | u64 =>
    simp only [attempt, Option.some.injEq] at h
    have := ofLE_lt (segment stream p (width .u64))
    rw [segment_length] at this
    simp only [width, bound] at this h ⊢
    omega
  | i63 =>
    simp only [attempt, Option.some.injEq] at h
    simp only [bound]
    omega
  | int m =>
    simp only [attempt] at h
    split at h
    · simp only [Option.some.injEq] at h
      simp only [bound]
      omega
    · cases h

/-- C79: a number that was asked for below `m` is below `m`, whoever else is drawing. -/
theorem C79_in_range (ks : Nat → Byte) (size : Nat) (hsz : 16 ≤ size) (progs : List (List Call))
    (hsmall : ∀ p ∈ progs, ∀ c ∈ p, Small size c) (s : State) (h : Reach (init ks size progs) s) (i : Nat)
    (prog : List Call) (th : Thread) (hp : progs[i]? = some prog) (ht : s.threads[i]? = some th) :
    ∀ c v, (c, v) ∈ answered prog th.replies → v < bound c := by
  intro c v hcv
  obtain ⟨ds, -, hr, hall⟩ := C79_draws ks size hsz progs hsmall s h
  rw [(hall i prog th hp ht).1] at hcv
  unfold drawnBy at hcv
  rw [List.mem_map] at hcv
  obtain ⟨d, hd, he⟩ := hcv
  obtain ⟨rfl, rfl⟩ := Prod.mk.injEq .. ▸ he
  obtain ⟨t, -, -, ha⟩ := (hr d (List.mem_filter.1 hd).1).1
  exact attempt_lt ha

/-- C79 (partial: no goroutine asks for a number from an empty range): as long as there are calls to be made, some goroutine
can go on. -/
theorem C79_no_deadlock_partial (ks : Nat → Byte) (size : Nat) (hsz : 16 ≤ size) (progs : List (List Call))
    (hsmall : ∀ p ∈ progs, ∀ c ∈ p, Small size c) (hne : ∀ p ∈ progs, ∀ c ∈ p, ¬ EmptyRange c) (s : State)
    (h : Reach (init ks size progs) s) (hf : ¬ Finished s) : ∃ s', Step s s' := by
  obtain ⟨ds, hg⟩ := good_reach hsz hsmall h
  exact good_steps hne hg hf

example : (∀ p ∈ [[Call.u64, .int 300], [.i63, .int 1, .seed]], ∀ c ∈ p, ¬ EmptyRange c) ∧
    ¬ Finished (init (fun _ => 0) 8192 [[.u64, .int 300], [.i63, .int 1, .seed]]) := by
  constructor
  · simp [EmptyRange]
  · simp [Finished, init]

/-- C79: no schedule keeps the goroutines busy for ever, if repeated attempts succeed eventually. (An attempt at a number
below `m` succeeds for more than half of the possible bytes, `C79_half`.) -/
theorem C79_ends (ks : Nat → Byte) (size : Nat) (hsz : 16 ≤ size) (progs : List (List Call))
    (hsmall : ∀ p ∈ progs, ∀ c ∈ p, Small size c)
    (hlucky : ∀ p ∈ progs, ∀ m, Call.int m ∈ p → 0 < m → Lucky (served ks size) (.int m)) :
    ¬ ∃ run : Nat → State, run 0 = init ks size progs ∧ ∀ k, Step (run k) (run (k + 1)) :=
  runs_end hsz hsmall hlucky

theorem Spec.lucky_zero (size : Nat) (m : Int) (hm : 0 < m) : Lucky (served (fun _ => 0) size) (.int m) := by
  intro p
  refine ⟨0, ?_⟩
  have hz : ∀ f o, refill (fun _ => 0) size f o = 0 := by
    intro f
    induction f with
    | zero => intro o; rfl
    | succ f ih => intro o; rw [refill, ih]; rfl
  have hseg : ∀ n, segment (served (fun _ => 0) size) (p + 0 * width (.int m)) n = List.replicate n 0 := by
    intro n
    apply List.ext_getElem
    · simp [segment]
    · intro k h1 h2
      simp only [segment, served, hz, List.getElem_map, List.getElem_replicate]
  have hbe : ∀ n, ofBE (List.replicate n 0) = 0 := by
    intro n
    induction n with
    | zero => rfl
    | succ n ih => rw [List.replicate_succ, ofBE_cons, ih]; simp
  rw [hseg]
  simp only [attempt, candidate, hbe, Nat.zero_mod]
  rw [if_pos (by omega)]
  simp

example : ∀ p ∈ [[Call.u64, .int 300], [.i63, .int 1, .seed, .int (-1)]], ∀ m, Call.int m ∈ p → 0 < m →
    Lucky (served (fun _ => 0) 8192) (.int m) := fun _ _ m _ hm => lucky_zero 8192 m hm

/-- C79 (partial: no goroutine asks for a number from an empty range): a process that cannot go on has finished, and every
call has returned: `Seed` with a panic and the others with a number. -/
theorem C79_finished_partial (ks : Nat → Byte) (size : Nat) (hsz : 16 ≤ size) (progs : List (List Call))
    (hsmall : ∀ p ∈ progs, ∀ c ∈ p, Small size c) (hne : ∀ p ∈ progs, ∀ c ∈ p, ¬ EmptyRange c) (s : State)
    (h : Reach (init ks size progs) s) (hstop : ∀ s', ¬ Step s s') (i : Nat) (prog : List Call)
    (hp : progs[i]? = some prog) :
    ∃ th, s.threads[i]? = some th ∧ List.Forall₂ (fun c r => r = .panic ↔ c = .seed) prog th.replies := by
  obtain ⟨ds, hg⟩ := good_reach hsz hsmall h
  have hf : Finished s := by
    by_contra hf
    obtain ⟨s', hs⟩ := good_steps hne hg hf
    exact hstop s' hs
  have hi : i < s.threads.length := by
    rw [hg.count]
    exact (List.getElem?_eq_some_iff.1 hp).1
  have hget : s.threads[i]? = some s.threads[i] := List.getElem?_eq_getElem hi
  obtain ⟨past, e, hl, -⟩ := hg.record i prog _ hp hget
  obtain ⟨h1, h2⟩ := hf _ (List.getElem_mem hi)
  rw [h1, h2] at e
  simp only [current, List.append_nil] at e
  subst e
  refine ⟨_, hget, ?_⟩
  have hmem := hne prog (List.mem_of_getElem? hp)
  clear hget hp h1 h2
  generalize s.threads[i].replies = rs at hl
  induction hl with
  | nil => exact .nil
  | cons hr _ ih =>
    refine .cons ?_ (ih fun c hc => hmem c (List.mem_cons_of_mem _ hc))
    exact hr.trans (or_iff_left (hmem _ List.mem_cons_self))

/-- C79: a request for a number from an empty range panics and leaves the mutex locked: once that happened, no goroutine is
ever told a number again. -/
theorem C79_leak (ks : Nat → Byte) (size : Nat) (hsz : 16 ≤ size) (progs : List (List Call))
    (hsmall : ∀ p ∈ progs, ∀ c ∈ p, Small size c) (s s' : State) (h : Reach (init ks size progs) s) (i : Nat)
    (prog : List Call) (th : Thread) (hp : progs[i]? = some prog) (ht : s.threads[i]? = some th) (k : Nat) (m : Int)
    (hk : prog[k]? = some (.int m)) (hm : m ≤ 0) (hpanic : th.replies[k]? = some .panic) (h' : Reach s s') :
    ∀ (j : Nat) (tj tj' : Thread), s.threads[j]? = some tj → s'.threads[j]? = some tj' →
      ∃ n, tj'.replies = tj.replies ++ List.replicate n .panic := by
  have hlt : k < th.replies.length := (List.getElem?_eq_some_iff.1 hpanic).1
  have hmem : Call.int m ∈ prog.take th.replies.length := by
    rw [List.mem_iff_getElem?]
    exact ⟨k, by rw [List.getElem?_take, if_pos hlt, hk]⟩
  exact (leaked_reach (told_reach hsz hsmall h ⟨i, prog, th, _, hp, ht, hmem, hm⟩) h').2.2

/-- `RandInt(0)` was called and its panic recovered from. -/
example : ∃ s, Reach (init (fun _ => 0) 8192 [[.int 0], [.u64]]) s ∧
    s.threads.map (·.replies) = [[.panic], []] :=
  ⟨_, .step .start ⟨0, rfl⟩, rfl⟩

/-- C79: how many of the possible bytes of an attempt yield the number `v` below `m` does not depend on `v`. -/
theorem C79_uniform (m : Int) (v : Nat) (hv : (v : Int) < m) :
    (Finset.univ.filter fun f : Fin (width (.int m)) → Fin (2 ^ 8) => attempt (.int m) (bytesOf f) = some v).card
      = 2 ^ (8 * width (.int m) - Nat.clog 2 m.toNat) := by
  exact card_attempt m v (by omega)

example : ((299 : Nat) : Int) < 300 := by decide

/-- C79: more than half of the possible bytes of an attempt yield a number. -/
theorem C79_half (m : Int) (hm : 0 < m) :
    Fintype.card (Fin (width (.int m)) → Fin (2 ^ 8))
      < 2 * (Finset.univ.filter fun f : Fin (width (.int m)) → Fin (2 ^ 8) => attempt (.int m) (bytesOf f) ≠ none).card := by
  rw [card_some]
  have h1 := pow_clog_lt m.toNat (by omega)
  have h2 := clog_le_width m.toNat
  have h3 : Fintype.card (Fin (width (.int m)) → Fin (2 ^ 8)) = 2 ^ (8 * width (.int m)) := by
    rw [Fintype.card_fun, Fintype.card_fin, Fintype.card_fin, pow_mul]
  have h4 : 2 ^ (8 * width (.int m)) = 2 ^ Nat.clog 2 m.toNat * 2 ^ (8 * width (.int m) - Nat.clog 2 m.toNat) := by
    rw [← pow_add]
    congr 1
    simp only [width]
    omega
  rw [h3, h4, ← Nat.mul_assoc]
  exact Nat.mul_lt_mul_of_pos_right h1 (Nat.pow_pos (by omega))

example : (0 : Int) < 300 := by decide

/-- C79 is false of the code: goroutine 0 calls `RandInt(0)` and recovers from the panic; goroutine 1, which asks for 64
bits, waits for ever. -/
theorem C79_refuted : ¬ C79_Statement := by
  intro h
  have hr : Reach (init (fun _ => 0) 16 [[.int 0], [.u64]])
      ⟨true, newBuf 16 ⟨fun _ => 0, 0⟩, [⟨[], .idle, [.panic]⟩, ⟨[.u64], .idle, []⟩]⟩ :=
    .step .start ⟨0, rfl⟩
  have h1 := (h (fun _ => 0) 16 [[.int 0], [.u64]] (by omega) (by simp [Small, width]) _ hr).2 (by simp [Finished])
  obtain ⟨s', i, hi⟩ := h1
  match i, hi with
  | 0, hi => simp [next] at hi
  | 1, hi => simp [next, begin] at hi
  | i + 2, hi => simp [next] at hi

end Verif.RandShared
