import Verif.Spec.DhStream
import Verif.Lemmas.PointStream

/-! # Lemmas: sessions of lookups of the group scheme with one generator -/

namespace Verif.DhStream
open Res Finset Verif.Rand Verif.Dh Verif.Dh.Spec Verif.Privacy Verif.Reaction Verif.History Verif.Coins Verif.Coins.Spec Verif.PointStream
  Verif.PointStream.Spec Verif.DhStream.Spec

/-- A read takes uniform bytes, if what follows has an average that does not depend on the bytes before. -/
theorem avg_read (k M pos : Nat) (f : List Byte → (Nat → Byte) → ℚ) (c : List Byte → ℚ)
    (h : ∀ l rest, avg (fun B : Fin M → Byte => f l (tape rest (pos + used k) M B)) = c l) (rest : Nat → Byte) :
    avg (fun B : Fin (used k + M) → Byte => f (keyStream (tape rest pos (used k + M) B) pos k) (tape rest pos (used k + M) B)) =
      avg (fun r : Fin k → Byte => c (List.ofFn r)) := by
  have hk : k ≤ used k := by unfold used; split <;> omega
  rw [avg_append]
  have h1 : ∀ B : Fin (used k) → Byte, avg (fun B' : Fin M → Byte =>
      f (keyStream (tape rest pos (used k + M) (Fin.append B B')) pos k) (tape rest pos (used k + M) (Fin.append B B'))) =
      c (List.ofFn (fun j : Fin k => B ⟨j, by omega⟩)) := by
    intro B
    rw [← h _ (tape rest pos (used k) B)]
    refine avg_congr (fun B' => ?_)
    rw [← tape_append]
    congr 1
    rw [LweReal.keyStream_ofFn]
    congr 1
    funext j
    rw [tape_at _ _ _ _ _ (by omega)]
    exact Fin.append_left B B' ⟨j, by omega⟩
  rw [avg_congr h1]
  exact LweReal.avg_pick (fun j : Fin k => (⟨j, by omega⟩ : Fin (used k))) (fun a b h => Fin.ext (by simpa using h))
    (fun r : Fin k → Byte => c (List.ofFn r))

/-- The bytes one lookup takes from the key stream. -/
def stride (s : Sampler) : Nat := used s.bytes + used s.bytes

theorem drawScalars_eq (s : Sampler) (ks : Nat → Byte) (pos : Nat) :
    drawScalars s ⟨ks, pos⟩ =
      ((s.scalar (keyStream ks pos s.bytes), s.scalar (keyStream ks (pos + used s.bytes) s.bytes)), ⟨ks, pos + stride s⟩) := by
  unfold drawScalars stride
  simp only [read_used]
  rw [Nat.add_assoc]

/-- The scalars of a lookup are those of uniform bytes, if what follows has an average that does not depend on the bytes before. -/
theorem avg_scalars (s : Sampler) (pos M : Nat) (f : Int × Int → Prg → ℚ) (c : Int × Int → ℚ)
    (h : ∀ d rest, avg (fun B : Fin M → Byte => f d ⟨tape rest (pos + stride s) M B, pos + stride s⟩) = c d) (rest : Nat → Byte) :
    avg (fun B : Fin (stride s + M) → Byte => f (drawScalars s ⟨tape rest pos (stride s + M) B, pos⟩).1
      (drawScalars s ⟨tape rest pos (stride s + M) B, pos⟩).2) =
      avg (fun x : Bytes s × Bytes s => c (uniform s x.2, uniform s x.1)) := by
  have h2 : ∀ l1 rest, avg (fun B : Fin (used s.bytes + M) → Byte =>
      f (s.scalar l1, s.scalar (keyStream (tape rest (pos + used s.bytes) (used s.bytes + M) B) (pos + used s.bytes) s.bytes))
        ⟨tape rest (pos + used s.bytes) (used s.bytes + M) B, pos + stride s⟩) =
      avg (fun r : Fin s.bytes → Byte => c (s.scalar l1, s.scalar (List.ofFn r))) := by
    intro l1 rest
    refine avg_read s.bytes M (pos + used s.bytes) (fun l ks => f (s.scalar l1, s.scalar l) ⟨ks, pos + stride s⟩)
      (fun l => c (s.scalar l1, s.scalar l)) ?_ rest
    intro l rest'
    rw [Nat.add_assoc]
    exact h _ rest'
  have h3 := avg_read s.bytes (used s.bytes + M) pos
    (fun l ks => f (s.scalar l, s.scalar (keyStream ks (pos + used s.bytes) s.bytes)) ⟨ks, pos + stride s⟩)
    (fun l => avg (fun r : Fin s.bytes → Byte => c (s.scalar l, s.scalar (List.ofFn r)))) h2 rest
  have e : stride s + M = used s.bytes + (used s.bytes + M) := by unfold stride; omega
  rw [e]
  simp only [drawScalars_eq]
  refine h3.trans ((avg_prod' (fun x : Bytes s × Bytes s => c (uniform s x.1, uniform s x.2))).symm.trans ?_)
  exact avg_equiv (Equiv.prodComm (Bytes s) (Bytes s)) (fun x : Bytes s × Bytes s => c (uniform s x.2, uniform s x.1))

section
variable {V : Type} {S : Server Nat (List Byte → Res (List Byte)) V} {see : Nat → (List Byte → Res (List Byte)) → Int × Int → V}

/-- A session with one generator is a session with independent uniform bytes. -/
theorem decides_avg (s : Sampler) (right : Bool) (n : Nat) : ∀ (past : List V) (rest : Nat → Byte) (pos M : Nat), n * stride s ≤ M →
    avg (fun B : Fin M → Byte => decides (fun i F rnd => (see i F (drawScalars s rnd).1, (drawScalars s rnd).2)) S right n past
      ⟨tape rest pos M B, pos⟩) =
    session (fun i F (x : Bytes s × Bytes s) => see i F (uniform s x.2, uniform s x.1)) S right n past := by
  induction n with
  | zero =>
    intro past rest pos M _
    exact avg_const (Ω := Fin M → Byte) (S.decide past)
  | succ n ih =>
    intro past rest pos M hM
    obtain ⟨M', rfl⟩ : ∃ M', M = stride s + M' := ⟨M - stride s, by rw [Nat.succ_mul] at hM; omega⟩
    exact avg_scalars s pos M'
      (fun d g => decides (fun i F rnd => (see i F (drawScalars s rnd).1, (drawScalars s rnd).2)) S right n
        (past ++ [see ((S.choose past).asked right) (S.choose past).answer d]) g)
      (fun d => session (fun i F (x : Bytes s × Bytes s) => see i F (uniform s x.2, uniform s x.1)) S right n
        (past ++ [see ((S.choose past).asked right) (S.choose past).answer d]))
      (fun d rest' => ih _ rest' (pos + stride s) M' (by rw [Nat.succ_mul] at hM; omega)) rest

open Classical in
theorem goesWrong_avg (s : Sampler) (wrong : Nat → (List Byte → Res (List Byte)) → Int × Int → Prop) (n : Nat) :
    ∀ (past : List V) (rest : Nat → Byte) (pos M : Nat), n * stride s ≤ M →
    avg (fun B : Fin M → Byte => if GoesWrong (fun i F rnd => (see i F (drawScalars s rnd).1, (drawScalars s rnd).2))
      (fun i F rnd => wrong i F (drawScalars s rnd).1) S n past ⟨tape rest pos M B, pos⟩ then (1 : ℚ) else 0) =
    everWrong (fun i F (x : Bytes s × Bytes s) => see i F (uniform s x.2, uniform s x.1))
      (fun i F x => wrong i F (uniform s x.2, uniform s x.1)) S n past := by
  induction n with
  | zero =>
    intro past rest pos M _
    refine Eq.trans (avg_congr (fun B => if_neg (fun h => h))) (avg_const (Ω := Fin M → Byte) 0)
  | succ n ih =>
    intro past rest pos M hM
    obtain ⟨M', rfl⟩ : ∃ M', M = stride s + M' := ⟨M - stride s, by rw [Nat.succ_mul] at hM; omega⟩
    refine Eq.trans (avg_congr (fun B => ?_)) (avg_scalars s pos M'
      (fun d g => if wrong (S.choose past).left (S.choose past).answer d then (1 : ℚ) else
        if GoesWrong (fun i F rnd => (see i F (drawScalars s rnd).1, (drawScalars s rnd).2))
          (fun i F rnd => wrong i F (drawScalars s rnd).1) S n
          (past ++ [see (S.choose past).left (S.choose past).answer d]) g then 1 else 0)
      (fun d => if wrong (S.choose past).left (S.choose past).answer d then (1 : ℚ) else
        everWrong (fun i F (x : Bytes s × Bytes s) => see i F (uniform s x.2, uniform s x.1))
          (fun i F x => wrong i F (uniform s x.2, uniform s x.1)) S n
          (past ++ [see (S.choose past).left (S.choose past).answer d]))
      (fun d rest' => ?_) rest)
    · by_cases h1 : wrong (S.choose past).left (S.choose past).answer (drawScalars s ⟨tape rest pos (stride s + M') B, pos⟩).1
      · have h2 : GoesWrong (fun i F rnd => (see i F (drawScalars s rnd).1, (drawScalars s rnd).2))
            (fun i F rnd => wrong i F (drawScalars s rnd).1) S (n + 1) past ⟨tape rest pos (stride s + M') B, pos⟩ := Or.inl h1
        rw [if_pos h2, if_pos h1]
      · refine Eq.trans ?_ (if_neg h1).symm
        exact if_congr (or_iff_right h1 : GoesWrong (fun i F rnd => (see i F (drawScalars s rnd).1, (drawScalars s rnd).2))
          (fun i F rnd => wrong i F (drawScalars s rnd).1) S (n + 1) past ⟨tape rest pos (stride s + M') B, pos⟩ ↔ _) rfl rfl
    · by_cases h1 : wrong (S.choose past).left (S.choose past).answer d
      · rw [if_pos h1]
        refine Eq.trans (avg_congr (fun B => if_pos h1)) (avg_const (Ω := Fin M' → Byte) 1)
      · rw [if_neg h1]
        refine Eq.trans (avg_congr (fun B => if_neg h1)) ?_
        exact ih _ rest' (pos + stride s) M' (by rw [Nat.succ_mul] at hM; omega)
end

/-! ### Wide reduction -/

theorem ofLE_ofFn_bijective (k : Nat) :
    Function.Bijective (fun x : Fin k → Byte => (⟨ofLE (List.ofFn x), by simpa using ofLE_lt (List.ofFn x)⟩ : Fin (256 ^ k))) := by
  rw [Fintype.bijective_iff_injective_and_card]
  constructor
  · intro x y h
    have h1 := congrArg Fin.val h
    dsimp only at h1
    apply List.ofFn_injective
    rw [← leBytes_ofLE (List.ofFn x), ← leBytes_ofLE (List.ofFn y), h1]
    simp
  · simp [card_word]

theorem avg_number (k : Nat) (f : Nat → ℚ) :
    avg (fun x : Fin k → Byte => f (ofLE (List.ofFn x))) = avg (fun n : Fin (256 ^ k) => f n.1) :=
  avg_equiv (Equiv.ofBijective _ (ofLE_ofFn_bijective k)) (fun n : Fin (256 ^ k) => f n.1)

/-- At most `N / q + 1` numbers below `N` have a given remainder. -/
theorem count_mod (N q a : Nat) : ((univ : Finset (Fin N)).filter (fun n => n.1 % q = a)).card ≤ N / q + 1 := by
  refine le_trans (Finset.card_le_card_of_injOn (t := Finset.range (N / q + 1)) (fun n => n.1 / q) ?_ ?_) (by simp)
  · intro n _
    simp only [Finset.coe_range, Set.mem_Iio]
    exact Nat.lt_succ_of_le (Nat.div_le_div_right n.2.le)
  · intro n hn m hm h
    simp only [Finset.coe_filter, Finset.mem_univ, true_and, Set.mem_ofPred_eq] at hn hm
    have h1 := Nat.div_add_mod n.1 q
    have h2 := Nat.div_add_mod m.1 q
    dsimp only at h
    rw [h, hn] at h1
    rw [hm] at h2
    exact Fin.ext (h1.symm.trans h2)

end Verif.DhStream
