import Verif.Spec.LweStream
import Verif.Lemmas.LweDraws
import Verif.Lemmas.Uniform
import Verif.Lemmas.History

/-! # Lemmas: sessions of lattice lookups and their draws -/

namespace Verif.LweStream
open Res Verif.Rand Verif.Matrix Verif.Lwe Verif.Lwe.Spec Verif.Gauss Verif.Privacy Verif.Coins Verif.Coins.Spec Verif.Reaction
  Verif.History Verif.LweReal Verif.LweReal.Spec Verif.LweDraws Verif.Monitor.Spec Verif.LweStream.Spec

variable {V C : Type}

/-! ### Sessions with given draws -/

/-- The decision after lookups with the given draws. -/
def replay (see : Nat → (List Byte → Res (List Byte)) → C → V) (S : Server Nat (List Byte → Res (List Byte)) V)
    (right : Bool) : List V → List C → ℚ
  | past, [] => S.decide past
  | past, c :: cs => replay see S right (past ++ [see ((S.choose past).asked right) (S.choose past).answer c]) cs

/-- One of the lookups with the given draws is wrong. -/
def ReplayWrong (see : Nat → (List Byte → Res (List Byte)) → C → V) (wrong : Nat → (List Byte → Res (List Byte)) → C → Prop)
    (S : Server Nat (List Byte → Res (List Byte)) V) : List V → List C → Prop
  | _, [] => False
  | past, c :: cs => wrong (S.choose past).left (S.choose past).answer c ∨
      ReplayWrong see wrong S (past ++ [see (S.choose past).left (S.choose past).answer c]) cs

theorem replay_test (see : Nat → (List Byte → Res (List Byte)) → C → V) (S : Server Nat (List Byte → Res (List Byte)) V)
    (hD : IsTest S.decide) (right : Bool) : ∀ cs past, 0 ≤ replay see S right past cs ∧ replay see S right past cs ≤ 1 := by
  intro cs
  induction cs with
  | nil => intro past; exact hD past
  | cons c cs ih => intro past; exact ih _

theorem decides_test (next : Prg → List (BitVec 64) → Res (C × Prg × List (BitVec 64)))
    (see : Nat → (List Byte → Res (List Byte)) → C → V) (S : Server Nat (List Byte → Res (List Byte)) V)
    (hang : List V → ℚ) (hD : IsTest S.decide) (hh : IsTest hang) (right : Bool) :
    ∀ n past g ws, 0 ≤ decides next see S hang right n past g ws ∧ decides next see S hang right n past g ws ≤ 1 := by
  intro n
  induction n with
  | zero => intro past g ws; exact hD past
  | succ n ih =>
    intro past g ws
    rw [decides]
    split
    · exact ih _ _ _
    · exact hh past

theorem drawMany_succ (fl : ℚ → ℚ) (k n l r : Nat) (g : Prg) (ws : List (BitVec 64)) :
    drawMany fl k n l (r + 1) g ws = (do
      let x ← drawNext fl k n l g ws
      let cs ← drawMany fl k n l r x.2.1 x.2.2
      ok (x.1 :: cs)) := by
  rw [drawMany]
  unfold drawNext
  cases gaussSamples fl l ws <;> rfl

/-- The draws of several lookups. -/
def collect (next : Prg → List (BitVec 64) → Res (C × Prg × List (BitVec 64))) : Nat → Prg → List (BitVec 64) → Res (List C)
  | 0, _, _ => ok []
  | n + 1, g, ws => do
    let x ← next g ws
    let cs ← collect next n x.2.1 x.2.2
    ok (x.1 :: cs)

theorem collect_drawNext (fl : ℚ → ℚ) (k m l : Nat) : ∀ n g ws,
    collect (drawNext fl k m l) n g ws = drawMany fl k m l n g ws := by
  intro n
  induction n with
  | zero => intro g ws; rfl
  | succ n ih =>
    intro g ws
    rw [drawMany_succ, collect]
    simp only [ih]

/-- Complete draws determine the session. -/
theorem decides_collect (next : Prg → List (BitVec 64) → Res (C × Prg × List (BitVec 64)))
    (see : Nat → (List Byte → Res (List Byte)) → C → V)
    (S : Server Nat (List Byte → Res (List Byte)) V) (hang : List V → ℚ) (right : Bool) :
    ∀ n past g ws cs, collect next n g ws = ok cs →
      decides next see S hang right n past g ws = replay see S right past cs := by
  intro n
  induction n with
  | zero =>
    intro past g ws cs h
    simp only [collect, ok.injEq] at h
    subst h
    rfl
  | succ n ih =>
    intro past g ws cs h
    rw [collect] at h
    obtain ⟨⟨c, g', ws'⟩, h1, h2⟩ := bind_eq_ok.1 h
    obtain ⟨cs', h3, h4⟩ := bind_eq_ok.1 h2
    rw [ok.injEq] at h4
    subst h4
    rw [decides, h1]
    exact ih _ _ _ _ h3

theorem decides_eq (fl : ℚ → ℚ) (k m l : Nat) (see : Nat → (List Byte → Res (List Byte)) → Coins → V)
    (S : Server Nat (List Byte → Res (List Byte)) V) (hang : List V → ℚ) (right : Bool) (n : Nat) (past : List V) (g : Prg)
    (ws : List (BitVec 64)) (cs : List Coins) (h : drawMany fl k m l n g ws = ok cs) :
    decides (drawNext fl k m l) see S hang right n past g ws = replay see S right past cs :=
  decides_collect _ see S hang right n past g ws cs (by rw [collect_drawNext, h])

theorem goesWrong_collect (next : Prg → List (BitVec 64) → Res (C × Prg × List (BitVec 64)))
    (see : Nat → (List Byte → Res (List Byte)) → C → V)
    (wrong : Nat → (List Byte → Res (List Byte)) → C → Prop) (S : Server Nat (List Byte → Res (List Byte)) V) :
    ∀ n past g ws cs, collect next n g ws = ok cs →
      (GoesWrong next see wrong S n past g ws ↔ ReplayWrong see wrong S past cs) := by
  intro n
  induction n with
  | zero =>
    intro past g ws cs h
    simp only [collect, ok.injEq] at h
    subst h
    exact Iff.rfl
  | succ n ih =>
    intro past g ws cs h
    rw [collect] at h
    obtain ⟨⟨c, g', ws'⟩, h1, h2⟩ := bind_eq_ok.1 h
    obtain ⟨cs', h3, h4⟩ := bind_eq_ok.1 h2
    rw [ok.injEq] at h4
    subst h4
    have h5 := ih (past ++ [see (S.choose past).left (S.choose past).answer c]) g' ws' cs' h3
    rw [GoesWrong, ReplayWrong, h1, ← h5]
    constructor
    · rintro ⟨c', g'', ws'', e, h⟩
      simp only [ok.injEq, Prod.mk.injEq] at e
      obtain ⟨rfl, rfl, rfl⟩ := e
      exact h
    · intro h
      exact ⟨c, g', ws', rfl, h⟩

theorem goesWrong_iff (fl : ℚ → ℚ) (k m l : Nat) (see : Nat → (List Byte → Res (List Byte)) → Coins → V)
    (wrong : Nat → (List Byte → Res (List Byte)) → Coins → Prop) (S : Server Nat (List Byte → Res (List Byte)) V) (n : Nat)
    (past : List V) (g : Prg) (ws : List (BitVec 64)) (cs : List Coins) (h : drawMany fl k m l n g ws = ok cs) :
    GoesWrong (drawNext fl k m l) see wrong S n past g ws ↔ ReplayWrong see wrong S past cs :=
  goesWrong_collect _ see wrong S n past g ws cs (by rw [collect_drawNext, h])

/-! ### Independent draws -/

theorem session_replay {Ω : Type} [Fintype Ω] [Nonempty Ω] (coin : Ω → C)
    (see : Nat → (List Byte → Res (List Byte)) → C → V) (S : Server Nat (List Byte → Res (List Byte)) V) (right : Bool) :
    ∀ n past, session (fun i F x => see i F (coin x)) S right n past =
      avg (fun z : Fin n → Ω => replay see S right past (List.ofFn (fun i => coin (z i)))) := by
  intro n
  induction n with
  | zero =>
    intro past
    simp only [List.ofFn_zero]
    exact (avg_const (S.decide past)).symm
  | succ n ih =>
    intro past
    rw [session, Verif.Uniform.avg_cons]
    refine avg_congr (fun x => ?_)
    rw [ih]
    refine avg_congr (fun z => ?_)
    rw [List.ofFn_succ]
    rfl

theorem everWrong_replay {Ω : Type} [Fintype Ω] [Nonempty Ω] (coin : Ω → C)
    (see : Nat → (List Byte → Res (List Byte)) → C → V) (wrong : Nat → (List Byte → Res (List Byte)) → C → Prop)
    (S : Server Nat (List Byte → Res (List Byte)) V) :
    ∀ n past, everWrong (fun i F x => see i F (coin x)) (fun i F x => wrong i F (coin x)) S n past =
      avg (fun z : Fin n → Ω => indicator (ReplayWrong see wrong S past (List.ofFn (fun i => coin (z i))))) := by
  intro n
  induction n with
  | zero =>
    intro past
    simp only [List.ofFn_zero]
    refine Eq.trans ?_ (avg_const (Ω := Fin 0 → Ω) (0 : ℚ)).symm |>.trans (avg_congr fun z => ?_)
    · rfl
    · exact (indicator_false (fun h => h)).symm
  | succ n ih =>
    intro past
    rw [everWrong, Verif.Uniform.avg_cons]
    refine avg_congr (fun x => ?_)
    split
    · rename_i h
      refine (avg_const (Ω := Fin n → Ω) (1 : ℚ)).symm.trans (avg_congr fun z => ?_)
      rw [List.ofFn_succ]
      exact (indicator_true (Or.inl h)).symm
    · rename_i h
      rw [ih]
      refine avg_congr (fun z => ?_)
      rw [List.ofFn_succ]
      refine congrArg indicator (propext ?_)
      exact ⟨fun h' => Or.inr h', fun h' => h'.resolve_left h⟩

/-- Independent draws one lookup after the other and all at once. -/
theorem ownAvg_fresh (fl : ℚ → ℚ) (k n l r N : Nat) (Φ : List Coins → ℚ) :
    ownAvg fl k n l r N Φ = avg (fun z : Fin r → Fresh k n N =>
      Φ (List.ofFn (fun i => ⟨List.ofFn (z i).1, List.ofFn (z i).2.1, noiseFrom fl l (List.ofFn (z i).2.2)⟩))) := by
  unfold ownAvg
  have h := avg_equiv (Equiv.arrowProdEquivProdArrow (Fin r) (fun _ => Fin k → Byte) (fun _ => Sample k n N))
    (fun x : (Fin r → Fin k → Byte) × (Fin r → Sample k n N) =>
      Φ (coinsAll (fun τ => List.ofFn τ) (fun y : Sample k n N => List.ofFn y.1) (fun y => noiseFrom fl l (List.ofFn y.2)) x))
  exact h.symm

/-! ### Missing words -/

theorem missing_le {fl : ℚ → ℚ} (hf : Nearest fl) (k n l r N c : Nat) (hc : 4 ≤ c) (hN : c * (r * l) ≤ N) :
    avg (fun x : ((Fin r → Fin k → Byte) × (Fin r → Fin (k * n) → Byte)) × (Fin N → BitVec 64) =>
      judge 1 (fun _ => 0) (madeMany fl l x.1.1 x.1.2 (List.ofFn x.2))) ≤ (r * l : Nat) * late c := by
  have h1 : sharedAvg fl k n l r N (fun _ => 1) + avg (fun x : ((Fin r → Fin k → Byte) × (Fin r → Fin (k * n) → Byte)) × (Fin N → BitVec 64) =>
      judge 1 (fun _ => 0) (madeMany fl l x.1.1 x.1.2 (List.ofFn x.2))) = 1 := by
    rw [sharedAvg_eq, avg_add]
    refine Eq.trans (avg_congr (g := fun _ => 1) fun x => ?_) (avg_const _)
    cases madeMany fl l x.1.1 x.1.2 (List.ofFn x.2) <;> simp [judge]
  have h2 : 1 - (r * l : Nat) * late c ≤ sharedAvg fl k n l r N (fun _ => 1) := by
    unfold sharedAvg
    rw [← avg_const (Ω := (Fin r → Fin k → Byte) × (Fin r → Fin (k * n) → Byte)) (1 - ((r * l : Nat) : ℚ) * late c)]
    refine avg_mono (fun x => ?_)
    have h3 := shared_ge hf r l c N hc hN (fun _ => 1) (fun y => ⟨zero_le_one, le_rfl⟩)
    have h4 : idealMean (chanceFor fl) r l (fun _ => 1) = 1 := by
      unfold idealMean
      simp only [mul_one]
      exact ideal_sum (C104_distribution hf).sum r l
    rw [h4] at h3
    exact h3
  linarith

/-- Averages over the generators. -/
theorem avg_stream (P : Past) (fl : ℚ → ℚ) (k n l r : Nat) (hk : k ≤ 16) (hM : r * stride k n ≤ P.M) (Φ : Res (List Coins) → ℚ) :
    avg (fun B : (Fin P.M → Byte) × (Fin (8 * P.N) → Byte) => Φ (drawMany fl k n l r ⟨tape P.rest P.pos P.M B.1, P.pos⟩
      (List.ofFn (fun i : Fin P.N => servedWord (tape P.rest' (8 * P.m) (8 * P.N) B.2) bufSize (8 * P.m) i)))) =
    avg (fun x : ((Fin r → Fin k → Byte) × (Fin r → Fin (k * n) → Byte)) × (Fin P.N → BitVec 64) =>
          Φ (madeMany fl l x.1.1 x.1.2 (List.ofFn x.2))) := by
  rw [← avg_many_eq P fl k n l r hk hM]
  exact avg_congr (fun B => by rw [drawMany_eq _ _ _ _ hk])

theorem words_eq (ks : Nat → Byte) (m N : Nat) :
    words ks m N = ok (List.ofFn (fun i : Fin N => servedWord ks bufSize (8 * m) i)) := by
  obtain ⟨us, b, us', b', h1, h2, h3⟩ := shared_words ks m N
  unfold words
  rw [h1]
  dsimp only
  rw [h2]
  dsimp only
  rw [h3]

/-! ### Sums of costs -/

theorem total_add {I A Ω : Type} [Fintype Ω] [Nonempty Ω] (see : I → A → Ω → V) (S : Server I A V)
    (cost : Choice I A → (V → ℚ) → ℚ) (κ : ℚ) :
    ∀ n past, total see S (fun c D => cost c D + κ) n past = total see S cost n past + n * κ := by
  intro n
  induction n with
  | zero => intro past; simp [History.total]
  | succ n ih =>
    intro past
    rw [History.total, History.total]
    rw [avg_congr (fun ω => ih _), ← avg_add, avg_const]
    push_cast
    ring

end Verif.LweStream
