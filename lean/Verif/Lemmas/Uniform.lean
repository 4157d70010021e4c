import Verif.Spec.Uniform
import Verif.Lemmas.FssHybrid
import Verif.Lemmas.ForgeryGame
import Verif.Lemmas.Field

/-! # Keys drawn from random bytes by rejection sampling -/

namespace Verif.Uniform
open Res Verif.Rand Verif.Field Verif.Field.Spec Verif.Privacy Verif.Predicate Verif.Fss Verif.Forge

/-! ### Averages -/

theorem avg_cons {X : Type} [Fintype X] [Nonempty X] {n : Nat} (F : (Fin (n + 1) → X) → ℚ) :
    avg F = avg (fun x : X => avg (fun z : Fin n → X => F (Fin.cons x z))) := by
  have := avg_prod' (fun w : X × (Fin n → X) => F (Fin.cons w.1 w.2))
  rw [← this, ← avg_equiv (Fin.consEquiv (fun _ => X))]
  rfl

theorem avg_mulr {Ω : Type} [Fintype Ω] (c : ℚ) (f : Ω → ℚ) : avg (fun x => f x * c) = avg f * c := by
  rw [mul_comm, ← avg_scale]
  exact avg_congr (fun x => mul_comm _ _)

theorem avg_byte (v : Nat) (hv : v < 256) : avg (fun b : Byte => if b.toNat = v then (1 : ℚ) else 0) = 1 / 256 := by
  unfold avg
  have h1 : ∑ b : Byte, (if b.toNat = v then (1 : ℚ) else 0) = 1 := by
    rw [Finset.sum_eq_single (BitVec.ofNat 8 v)]
    · rw [if_pos (by rw [BitVec.toNat_ofNat]; exact Nat.mod_eq_of_lt hv)]
    · intro b _ hb
      rw [if_neg]
      intro h
      apply hb
      apply BitVec.eq_of_toNat_eq
      rw [BitVec.toNat_ofNat, h]
      exact (Nat.mod_eq_of_lt hv).symm
    · simp
  have h2 : Fintype.card Byte = 256 := by
    rw [Fintype.card_congr (⟨BitVec.toFin, BitVec.ofFin, fun _ => rfl, fun _ => rfl⟩ : Byte ≃ Fin (2 ^ 8)), Fintype.card_fin]; norm_num
  rw [h1, h2]
  norm_num

theorem avg_byte_low (v : Nat) (hv : v < 128) : avg (fun b : Byte => if b.toNat % 128 = v then (1 : ℚ) else 0) = 2 / 256 := by
  have h : ∀ b : Byte, (if b.toNat % 128 = v then (1 : ℚ) else 0)
      = (if b.toNat = v then (1 : ℚ) else 0) + (if b.toNat = v + 128 then (1 : ℚ) else 0) := by
    intro b
    have := b.isLt
    by_cases h1 : b.toNat = v
    · rw [if_pos (by omega), if_pos h1, if_neg (by omega)]; norm_num
    · by_cases h2 : b.toNat = v + 128
      · rw [if_pos (by omega), if_neg h1, if_pos h2]; norm_num
      · rw [if_neg (by omega), if_neg h1, if_neg h2]; norm_num
  rw [avg_congr h, ← avg_add, avg_byte v (by omega), avg_byte (v + 128) (by omega)]
  norm_num

/-- The first four bytes of a block. -/
def first4 (b : Fin 16 → Byte) : List Byte := [b 0, b 1, b 2, b 3]

theorem avg_first (f : Byte → Byte → Byte → Byte → ℚ) :
    avg (fun b : Fin 16 → Byte => f (b 0) (b 1) (b 2) (b 3))
      = avg (fun x0 : Byte => avg (fun x1 : Byte => avg (fun x2 : Byte => avg (fun x3 : Byte => f x0 x1 x2 x3)))) := by
  rw [avg_cons (n := 15)]
  refine avg_congr (fun x0 => ?_)
  rw [avg_cons (n := 14)]
  refine avg_congr (fun x1 => ?_)
  rw [avg_cons (n := 13)]
  refine avg_congr (fun x2 => ?_)
  rw [avg_cons (n := 12)]
  refine avg_congr (fun x3 => ?_)
  exact avg_const (Ω := Fin 12 → Byte) (f x0 x1 x2 x3)

theorem low31_iff (x0 x1 x2 x3 : Byte) (v : Nat) (hv : v < 2 ^ 31) : low31 [x0, x1, x2, x3] = v ↔
    x0.toNat % 128 = v / 2 ^ 24 ∧ x1.toNat = v / 2 ^ 16 % 256 ∧ x2.toNat = v / 2 ^ 8 % 256 ∧ x3.toNat = v % 256 := by
  unfold low31
  rw [ofBE_four]
  have := x0.isLt
  have := x1.isLt
  have := x2.isLt
  have := x3.isLt
  omega

theorem and_ite (a b : Prop) [Decidable a] [Decidable b] [Decidable (a ∧ b)] :
    (if a ∧ b then (1 : ℚ) else 0) = (if a then 1 else 0) * (if b then 1 else 0) := by
  by_cases h1 : a <;> by_cases h2 : b <;> simp [h1, h2]

/-- Every 31-bit value is taken by the same part of the blocks. -/
theorem avg_low31 (v : Nat) (hv : v < 2 ^ 31) :
    avg (fun b : Fin 16 → Byte => if low31 (first4 b) = v then (1 : ℚ) else 0) = 1 / 2 ^ 31 := by
  have h := avg_first (fun x0 x1 x2 x3 => if low31 [x0, x1, x2, x3] = v then (1 : ℚ) else 0)
  have e : avg (fun b : Fin 16 → Byte => if low31 (first4 b) = v then (1 : ℚ) else 0)
    = avg (fun b : Fin 16 → Byte => if low31 [b 0, b 1, b 2, b 3] = v then (1 : ℚ) else 0) := rfl
  rw [e, h]
  have e3 : ∀ x0 x1 x2 : Byte, avg (fun x3 : Byte => if low31 [x0, x1, x2, x3] = v then (1 : ℚ) else 0)
      = (if x0.toNat % 128 = v / 2 ^ 24 then 1 else 0) * ((if x1.toNat = v / 2 ^ 16 % 256 then 1 else 0)
        * ((if x2.toNat = v / 2 ^ 8 % 256 then 1 else 0) * (1 / 256))) := by
    intro x0 x1 x2
    rw [← avg_byte (v % 256) (by omega), ← avg_scale, ← avg_scale, ← avg_scale]
    refine avg_congr (fun x3 => ?_)
    simp only [low31_iff x0 x1 x2 x3 v hv]
    rw [and_ite, and_ite, and_ite]
  have e2 : ∀ x0 x1 : Byte, avg (fun x2 : Byte => avg (fun x3 : Byte => if low31 [x0, x1, x2, x3] = v then (1 : ℚ) else 0))
      = (if x0.toNat % 128 = v / 2 ^ 24 then 1 else 0) * ((if x1.toNat = v / 2 ^ 16 % 256 then 1 else 0)
        * (1 / 256 * (1 / 256))) := by
    intro x0 x1
    rw [avg_congr (fun x2 => e3 x0 x1 x2), avg_scale, avg_scale, avg_mulr, avg_byte _ (by omega)]
  have e1 : ∀ x0 : Byte, avg (fun x1 : Byte => avg (fun x2 : Byte => avg (fun x3 : Byte =>
      if low31 [x0, x1, x2, x3] = v then (1 : ℚ) else 0)))
      = (if x0.toNat % 128 = v / 2 ^ 24 then 1 else 0) * (1 / 256 * (1 / 256 * (1 / 256))) := by
    intro x0
    rw [avg_congr (fun x1 => e2 x0 x1), avg_scale, avg_mulr, avg_byte _ (by omega)]
  rw [avg_congr e1, avg_mulr, avg_byte_low _ (by omega)]
  norm_num

theorem avg_hit (k : Nat) (hk : k < p) (A c : ℚ) :
    avg (fun b : Fin 16 → Byte => if low31 (first4 b) = p then A else if low31 (first4 b) = k then c else 0)
      = A / 2 ^ 31 + c / 2 ^ 31 := by
  have h : ∀ b : Fin 16 → Byte, (if low31 (first4 b) = p then A else if low31 (first4 b) = k then c else 0)
      = A * (if low31 (first4 b) = p then 1 else 0) + c * (if low31 (first4 b) = k then 1 else 0) := by
    intro b
    by_cases h1 : low31 (first4 b) = p
    · rw [if_pos h1, if_pos h1, if_neg (by omega)]; ring
    · by_cases h2 : low31 (first4 b) = k
      · rw [if_neg h1, if_pos h2, if_neg h1, if_pos h2]; ring
      · rw [if_neg h1, if_neg h2, if_neg h1, if_neg h2]; ring
  rw [avg_congr h, ← avg_add, avg_scale, avg_scale, avg_low31 p (by norm_num [p]),
    avg_low31 k (by rw [p_val] at hk; omega)]
  ring

theorem avg_accept (A c : ℚ) :
    avg (fun b : Fin 16 → Byte => if low31 (first4 b) = p then A else c) = c + (A - c) / 2 ^ 31 := by
  have h : ∀ b : Fin 16 → Byte, (if low31 (first4 b) = p then A else c)
      = c + (A - c) * (if low31 (first4 b) = p then 1 else 0) := by
    intro b
    split <;> ring
  rw [avg_congr h, ← avg_add, avg_const, avg_scale, avg_low31 p (by norm_num [p])]
  ring

/-! ### One block of the tape -/

theorem tape_cons (rest : Nat → Byte) (pos n : Nat) (b : Fin 16 → Byte) (B : Fin n → Fin 16 → Byte) :
    tape rest pos (n + 1) (Fin.cons b B) = tape (tape rest pos 1 (fun _ => b)) (pos + 16) n B := by
  funext i
  unfold tape
  by_cases h0 : pos ≤ i
  · by_cases h1 : i < pos + 16
    · rw [dif_pos (by omega : pos ≤ i ∧ (i - pos) / 16 < n + 1), dif_neg (by omega),
        dif_pos (by omega : pos ≤ i ∧ (i - pos) / 16 < 1)]
      have : (⟨(i - pos) / 16, by omega⟩ : Fin (n + 1)) = 0 := Fin.ext (by simp only [Fin.val_zero]; omega)
      rw [this, Fin.cons_zero]
    · by_cases h2 : (i - (pos + 16)) / 16 < n
      · rw [dif_pos (by omega : pos ≤ i ∧ (i - pos) / 16 < n + 1), dif_pos (by omega)]
        have : (⟨(i - pos) / 16, by omega⟩ : Fin (n + 1)) = Fin.succ ⟨(i - (pos + 16)) / 16, h2⟩ :=
          Fin.ext (by simp only [Fin.val_succ]; omega)
        rw [this, Fin.cons_succ]
        congr 1
        exact Fin.ext (by simp only; omega)
      · rw [dif_neg (by omega), dif_neg (by omega), dif_neg (by omega)]
  · rw [dif_neg (by omega), dif_neg (by omega), dif_neg (by omega)]

theorem tape_first (rest : Nat → Byte) (pos n : Nat) (b : Fin 16 → Byte) (B : Fin n → Fin 16 → Byte) :
    candidate ⟨tape (tape rest pos 1 (fun _ => b)) (pos + 16) n B, pos⟩ 0 = first4 b := by
  have h : ∀ j, (hj : j < 16) → tape (tape rest pos 1 (fun _ => b)) (pos + 16) n B (pos + j) = b ⟨j, hj⟩ := by
    intro j hj
    unfold tape
    rw [dif_neg (by omega), dif_pos (by omega : pos ≤ pos + j ∧ (pos + j - pos) / 16 < 1)]
    exact congrArg b (Fin.ext (by show (pos + j - pos) % 16 = j; omega))
  have h0 : tape (tape rest pos 1 (fun _ => b)) (pos + 16) n B pos = b ⟨0, by omega⟩ := h 0 (by omega)
  simp only [candidate, keyStream, Nat.mul_zero, Nat.add_zero, List.range_succ, List.range_zero, List.nil_append,
    List.map_cons, List.map_nil, List.cons_append, first4]
  rw [h0, h 1 (by omega), h 2 (by omega), h 3 (by omega)]
  rfl

/-! ### One element -/

/-- What a test makes of the generator after an element was drawn. -/
def after (r : Res (U32 × Prg)) (w : U32 → ℚ) (K : Prg → ℚ) : ℚ :=
  match r with
  | ok (r, g) => w r * K g
  | _ => 0

/-- `K` has mean `c` when at least `n0` blocks from the position on are random. -/
def HasMean (K : Prg → ℚ) (n0 : Nat) (c : ℚ) : Prop :=
  ∀ (rest : Nat → Byte) (pos n : Nat), n0 ≤ n → avg (fun B : Fin n → Fin 16 → Byte => K ⟨tape rest pos n B, pos⟩) = c

theorem loop_accepted (fuel : Nat) (buf : List Byte) (c : List Byte) (g : Prg) (h : low31 c ≠ p) :
    randElementLoop fuel buf (maskedWord c) g = ok (maskedWord c, g) := by
  have := (maskedWord_ne_iff c).2 h
  cases fuel <;> simp [randElementLoop, this]

theorem loop_mean (w : U32 → ℚ) {K : Prg → ℚ} {n0 : Nat} {c : ℚ} (hK : HasMean K n0 c) (m : Nat → ℚ) (hm0 : m 0 = 0)
    (hm : ∀ f, avg (fun b : Fin 16 → Byte => if low31 (first4 b) = p then m f else w (maskedWord (first4 b)) * c)
      = m (f + 1)) :
    ∀ (fuel : Nat) (buf : List Byte), buf.length = 4 →
      HasMean (fun g => after (randElementLoop fuel buf modP g) w K) (fuel + n0) (m fuel) := by
  intro fuel
  induction fuel with
  | zero =>
    intro buf _ rest pos n _
    simp only [randElementLoop, if_true, after]
    rw [hm0]
    exact avg_const _
  | succ fuel ih =>
    intro buf hb rest pos n hn
    obtain ⟨n, rfl⟩ : ∃ k, n = k + 1 := ⟨n - 1, by omega⟩
    rw [avg_cons, ← hm fuel]
    refine avg_congr (fun b => ?_)
    by_cases hr : low31 (first4 b) = p
    · rw [if_pos hr]
      have e : ∀ B : Fin n → Fin 16 → Byte, ∃ buf'', buf''.length = 4 ∧
          randElementLoop (fuel + 1) buf modP ⟨tape rest pos (n + 1) (Fin.cons b B), pos⟩
            = randElementLoop fuel buf'' modP ⟨tape (tape rest pos 1 (fun _ => b)) (pos + 16) n B, pos + 16⟩ := by
        intro B
        obtain ⟨b2, hb2, e2⟩ := randElementLoop_step fuel buf ⟨tape rest pos (n + 1) (Fin.cons b B), pos⟩ hb
        rw [tape_cons] at e2
        rw [tape_first] at e2
        refine ⟨b2, hb2, ?_⟩
        rw [tape_cons, e2]
        have : maskedWord (first4 b) = modP := by
          by_contra hc
          exact (maskedWord_ne_iff _).1 hc hr
        rw [this]
      rw [← ih (List.replicate 4 0) (by simp) (tape rest pos 1 (fun _ => b)) (pos + 16) n (by omega)]
      refine avg_congr (fun B => ?_)
      obtain ⟨b2, hb2, e2⟩ := e B
      show after _ _ _ = after _ _ _
      rw [e2]
      congr 1
      cases fuel with
      | zero => rfl
      | succ f =>
        have h1 : ∀ (b : List Byte) (g : Prg), b.length = 4 →
            randElementLoop (f + 1) b modP g = randElementLoop (f + 1) (List.replicate 4 0) modP g := by
          intro b g hb
          rw [randElementLoop, randElementLoop, if_pos rfl, if_pos rfl, read4 g b hb, read4 g _ (by simp)]
        exact h1 b2 _ hb2
    · rw [if_neg hr, ← hK (tape rest pos 1 (fun _ => b)) (pos + 16) n (by omega), ← avg_scale]
      refine avg_congr (fun B => ?_)
      obtain ⟨b2, hb2, e2⟩ := randElementLoop_step fuel buf ⟨tape rest pos (n + 1) (Fin.cons b B), pos⟩ hb
      show after _ _ _ = _
      rw [e2, tape_cons, tape_first, loop_accepted _ _ _ _ hr]
      rfl

/-- The chance that sampling is not done after `fuel` draws. -/
def fail (fuel : Nat) : ℚ := 1 / 2 ^ (31 * fuel)

theorem fail_succ (f : Nat) : fail (f + 1) = fail f / 2 ^ 31 := by
  unfold fail
  rw [show 31 * (f + 1) = 31 * f + 31 by ring, pow_add]
  field_simp

theorem element_value {K : Prg → ℚ} {n0 : Nat} {c : ℚ} (hK : HasMean K n0 c) (fuel : Nat) {k : U32} (hk : Canonical k) :
    HasMean (fun g => after (randElementWithPRG fuel g) (fun r => if r = k then 1 else 0) K) (fuel + n0)
      ((1 - fail fuel) / p * c) := by
  refine loop_mean (fun r => if r = k then 1 else 0) hK (fun f => (1 - fail f) / p * c) (by simp [fail]) ?_ fuel _ (by simp)
  intro f
  have e : ∀ b : Fin 16 → Byte, (if low31 (first4 b) = p then (1 - fail f) / p * c
      else (if maskedWord (first4 b) = k then 1 else 0) * c)
      = if low31 (first4 b) = p then (1 - fail f) / p * c else if low31 (first4 b) = k.toNat then c else 0 := by
    intro b
    have : maskedWord (first4 b) = k ↔ low31 (first4 b) = k.toNat := by
      rw [← maskedWord_toNat, BitVec.toNat_inj]
    simp only [this]
    split
    · rfl
    · split <;> ring
  rw [avg_congr e, avg_hit _ hk, fail_succ]
  have hp : (p : ℚ) = 2 ^ 31 - 1 := by norm_num [p]
  have hp0 : (p : ℚ) ≠ 0 := by norm_num [p]
  rw [hp] at hp0 ⊢
  field_simp
  ring

theorem element_done {K : Prg → ℚ} {n0 : Nat} {c : ℚ} (hK : HasMean K n0 c) (fuel : Nat) :
    HasMean (fun g => after (randElementWithPRG fuel g) (fun _ => 1) K) (fuel + n0) ((1 - fail fuel) * c) := by
  refine loop_mean (fun _ => 1) hK (fun f => (1 - fail f) * c) (by simp [fail]) ?_ fuel _ (by simp)
  intro f
  simp only [one_mul]
  rw [avg_accept, fail_succ]
  ring

/-! ### All the keys -/

/-- The keys, one after the other. -/
def drawList (fuel : Nat) : Nat → Prg → Res (List U32 × Prg)
  | 0, g => ok ([], g)
  | m + 1, g => do
    let (ks, g) ← drawList fuel m g
    let (e, g) ← randElementWithPRG fuel g
    ok (ks ++ [e], g)

theorem drawList_length {fuel : Nat} : ∀ {m : Nat} {g g' : Prg} {ks : List U32}, drawList fuel m g = ok (ks, g') →
    ks.length = m ∧ ∀ k ∈ ks, Canonical k := by
  intro m
  induction m with
  | zero =>
    intro g g' ks h
    simp only [drawList, ok.injEq, Prod.mk.injEq] at h
    rw [← h.1]
    simp
  | succ m ih =>
    intro g g' ks h
    simp only [drawList, bind_eq_ok] at h
    obtain ⟨⟨ks1, g1⟩, e1, ⟨e, g2⟩, e2, h3⟩ := h
    simp only [ok.injEq, Prod.mk.injEq] at h3
    obtain ⟨i1, i2⟩ := ih e1
    rw [← h3.1]
    refine ⟨by simp [i1], ?_⟩
    intro k hk
    rcases List.mem_append.1 hk with hk | hk
    · exact i2 k hk
    · rw [List.mem_singleton] at hk
      rw [hk]
      exact randElementLoop_out fuel _ modP g1 g2 e (by simp) (Or.inl rfl) e2

theorem set_snoc (ks : List U32) (e : U32) (k m : Nat) (hl : ks.length = m) :
    (ks ++ List.replicate (k + 1) 0).set m e = ks ++ [e] ++ List.replicate k 0 := by
  subst hl
  rw [List.set_append_right _ _ le_rfl, Nat.sub_self, List.replicate_succ, List.set_cons_zero, List.append_assoc]
  rfl

theorem drawKeys_eq (fuel ex : Nat) (hex : 0 < ex) (g : Prg) :
    drawKeys fuel ex g = drawList fuel (ex - 1) g >>= fun r => ok (⟨r.1 ++ [0], 1 :: r.1⟩, r.2) := by
  have key : ∀ m, m ≤ ex - 1 → forLoop m (fun i (s : List U32 × List U32 × Prg) => do
      let (e, rnd) ← randElementWithPRG fuel s.2.2
      let alphas ← setAt s.1 i e
      let a ← setAt s.2.1 (i + 1) e
      ok (alphas, a, rnd)) (List.replicate ex (0 : U32), 1 :: List.replicate (ex - 1) (0 : U32), g)
      = drawList fuel m g >>= fun r => ok (r.1 ++ List.replicate (ex - m) 0, 1 :: (r.1 ++ List.replicate (ex - 1 - m) 0), r.2) := by
    intro m
    induction m with
    | zero => intro _; rfl
    | succ m ih =>
      intro hm
      rw [forLoop_succ, ih (by omega), drawList]
      cases hd : drawList fuel m g with
      | ok r =>
        obtain ⟨ks, g1⟩ := r
        have hl := (drawList_length hd).1
        simp only [ok_bind]
        cases he : randElementWithPRG fuel g1 with
        | ok r =>
          obtain ⟨e, g2⟩ := r
          simp only [ok_bind]
          rw [setAt_of_lt (by simp; omega)]
          simp only [ok_bind]
          rw [setAt_of_lt (by simp; omega)]
          simp only [ok_bind, ok.injEq, Prod.mk.injEq, and_true]
          constructor
          · rw [show ex - m = ex - (m + 1) + 1 by omega, set_snoc ks e _ m hl]
          · rw [List.set_cons_succ, show ex - 1 - m = ex - 1 - (m + 1) + 1 by omega, set_snoc ks e _ m hl]
        | err m => rfl
        | crash m => rfl
      | err m => rfl
      | crash m => rfl
  unfold drawKeys
  rw [setAt_of_lt (by simpa using hex)]
  simp only [ok_bind]
  have hr : (List.replicate ex (0 : U32)).set 0 1 = 1 :: List.replicate (ex - 1) 0 := by
    obtain ⟨k, rfl⟩ : ∃ k, ex = k + 1 := ⟨ex - 1, by omega⟩
    rw [List.replicate_succ, List.set_cons_zero]
    rfl
  rw [hr, key (ex - 1) le_rfl]
  cases drawList fuel (ex - 1) g with
  | ok r =>
    simp only [ok_bind]
    rw [show ex - (ex - 1) = 1 by omega, Nat.sub_self]
    simp
  | err m => rfl
  | crash m => rfl

/-- What a test makes of the generator after the keys were drawn. -/
def afterList (r : Res (List U32 × Prg)) (w : List U32 → ℚ) (K : Prg → ℚ) : ℚ :=
  match r with
  | ok (r, g) => w r * K g
  | _ => 0

theorem list_value (fuel : Nat) : ∀ (ks : List U32), (∀ k ∈ ks, Canonical k) → ∀ {K : Prg → ℚ} {n0 : Nat} {c : ℚ},
    HasMean K n0 c → HasMean (fun g => afterList (drawList fuel ks.length g) (fun r => if r = ks then 1 else 0) K)
      (fuel * ks.length + n0) (((1 - fail fuel) / p) ^ ks.length * c) := by
  intro ks
  induction ks using List.reverseRecOn with
  | nil =>
    intro _ K n0 c hK rest pos n hn
    simp only [List.length_nil, drawList, afterList, if_true, one_mul, pow_zero]
    exact hK rest pos n (by simpa using hn)
  | append_singleton ks k ih =>
    intro hc K n0 c hK
    have h1 := element_value hK fuel (hc k (by simp))
    have h2 := ih (fun k hk => hc k (by simp [hk])) h1
    have e : ∀ g, afterList (drawList fuel (ks ++ [k]).length g) (fun r => if r = ks ++ [k] then 1 else 0) K
        = afterList (drawList fuel ks.length g) (fun r => if r = ks then 1 else 0)
          (fun g => after (randElementWithPRG fuel g) (fun r => if r = k then 1 else 0) K) := by
      intro g
      rw [List.length_append, List.length_singleton, drawList]
      cases hd : drawList fuel ks.length g with
      | ok r =>
        obtain ⟨ks1, g1⟩ := r
        have hl := (drawList_length hd).1
        simp only [ok_bind, afterList]
        cases he : randElementWithPRG fuel g1 with
        | ok r =>
          obtain ⟨r, g2⟩ := r
          simp only [ok_bind, after]
          by_cases ha : ks1 = ks
          · by_cases hb : r = k
            · simp [ha, hb]
            · have : ¬ ks1 ++ [r] = ks ++ [k] := fun h => hb (by simpa using (List.append_inj h hl).2)
              rw [if_neg this, if_neg hb]
              ring
          · have : ¬ ks1 ++ [r] = ks ++ [k] := fun h => ha (List.append_inj h hl).1
            rw [if_neg this, if_neg ha]
            ring
        | err m => simp [after]
        | crash m => simp [after]
      | err m => rfl
      | crash m => rfl
    intro rest pos n hn
    rw [avg_congr (fun B => e _), h2 rest pos n (by
      rw [List.length_append, List.length_singleton] at hn
      nlinarith), List.length_append, List.length_singleton, pow_succ]
    ring

theorem list_done (fuel : Nat) : ∀ (m : Nat) {K : Prg → ℚ} {n0 : Nat} {c : ℚ},
    HasMean K n0 c → HasMean (fun g => afterList (drawList fuel m g) (fun _ => 1) K)
      (fuel * m + n0) ((1 - fail fuel) ^ m * c) := by
  intro m
  induction m with
  | zero =>
    intro K n0 c hK rest pos n hn
    simp only [drawList, afterList, one_mul, pow_zero]
    exact hK rest pos n (by simpa using hn)
  | succ m ih =>
    intro K n0 c hK
    have h2 := ih (element_done hK fuel)
    have e : ∀ g, afterList (drawList fuel (m + 1) g) (fun _ => 1) K
        = afterList (drawList fuel m g) (fun _ => 1) (fun g => after (randElementWithPRG fuel g) (fun _ => 1) K) := by
      intro g
      rw [drawList]
      cases hd : drawList fuel m g with
      | ok r =>
        obtain ⟨ks1, g1⟩ := r
        simp only [ok_bind, afterList, one_mul]
        cases he : randElementWithPRG fuel g1 with
        | ok r => simp [after]
        | err m => simp [after]
        | crash m => simp [after]
      | err m => rfl
      | crash m => rfl
    intro rest pos n hn
    rw [avg_congr (fun B => e _), h2 rest pos n (by nlinarith), pow_succ]
    ring

theorem const_mean : HasMean (fun _ => 1) 0 1 := by
  intro rest pos n _
  exact avg_const _

end Verif.Uniform
