import Verif.Spec.LweReal
import Verif.Lemmas.Draws
import Verif.Props.ReactionLwe
import Verif.Props.LweChance

/-! # Lemmas: the draws of a client as a sample of the LWE problem -/

namespace Verif.LweReal
open Res Verif.Rand Verif.Matrix Verif.Lwe Verif.Lwe.Spec Verif.Gauss Verif.Gauss.Spec Verif.Privacy Verif.Coins
  Verif.Coins.Spec Verif.Reaction Verif.LweReal.Spec Verif.Monitor.Spec

/-- Coordinates picked from uniform bytes are uniform. -/
theorem avg_pick {J X : Type} [Fintype J] [DecidableEq J] [Fintype X] [Nonempty X] {M : Nat} (e : J → Fin M) (he : Function.Injective e)
    (f : (J → X) → ℚ) : avg (fun B : Fin M → X => f (fun j => B (e j))) = avg f := by
  classical
  have h1 := avg_equiv (Equiv.piEquivPiSubtypeProd (fun i => i ∈ Set.range e) (fun _ : Fin M => X))
    (fun x : ({i // i ∈ Set.range e} → X) × ({i // ¬ i ∈ Set.range e} → X) => f (fun j => x.1 ⟨e j, j, rfl⟩))
  have h2 : avg (fun x : ({i // i ∈ Set.range e} → X) × ({i // ¬ i ∈ Set.range e} → X) => f (fun j => x.1 ⟨e j, j, rfl⟩))
      = avg (fun y : {i // i ∈ Set.range e} → X => f (fun j => y ⟨e j, j, rfl⟩)) := by
    rw [avg_prod']
    exact avg_congr (fun y => avg_const (Ω := {i // ¬ i ∈ Set.range e} → X) (f (fun j => y ⟨e j, j, rfl⟩)))
  have h3 := avg_equiv (Equiv.arrowCongr (Equiv.ofInjective e he).symm (Equiv.refl X)) f
  refine Eq.trans ?_ (h1.trans (h2.trans (Eq.trans ?_ h3)))
  · rfl
  · rfl

theorem keyStream_ofFn (ks : Nat → Byte) (pos n : Nat) : keyStream ks pos n = List.ofFn (fun i : Fin n => ks (pos + i)) := by
  unfold keyStream
  apply List.ext_getElem (by simp)
  intro i h1 h2
  simp

/-- The draws with multiplier bytes `τ`, secret bytes `σ` and words `ws`. -/
def made (fl : ℚ → ℚ) {k n : Nat} (l : Nat) (τ : Fin k → Byte) (σ : Fin (k * n) → Byte) (ws : List (BitVec 64)) : Res Coins := do
  let r ← gaussSamples fl l ws
  ok ⟨List.ofFn τ, List.ofFn σ, r.1⟩

/-- Averages over the generators are averages over a multiplier, a secret and words. -/
theorem avg_draws_eq (P : Past) (fl : ℚ → ℚ) (k n l : Nat) (hk : k ≤ 16) (hM : 16 + k * n ≤ P.M) (Φ : Res Coins → ℚ) :
    avg (fun B : (Fin P.M → Byte) × (Fin (8 * P.N) → Byte) => Φ (draws P fl k n l B.1 B.2))
      = avg (fun x : (Fin k → Byte) × Sample k n P.N => Φ (made fl l x.1 x.2.1 (List.ofFn x.2.2))) := by
  let e : Fin k ⊕ Fin (k * n) → Fin P.M := Sum.elim (fun i => ⟨i, by omega⟩) (fun i => ⟨16 + i, by omega⟩)
  have he : Function.Injective e := by
    rintro (i | i) (j | j) h
    · have := congrArg Fin.val h
      exact congrArg Sum.inl (Fin.ext this)
    · have h' : i.val = 16 + j.val := congrArg Fin.val h
      omega
    · have h' : 16 + i.val = j.val := congrArg Fin.val h
      omega
    · have h' : 16 + i.val = 16 + j.val := congrArg Fin.val h
      exact congrArg Sum.inr (Fin.ext (by omega))
  have h1 : ∀ B : (Fin P.M → Byte) × (Fin (8 * P.N) → Byte), Φ (draws P fl k n l B.1 B.2)
      = Φ (made fl l (fun i : Fin k => B.1 (e (Sum.inl i))) (fun i : Fin (k * n) => B.1 (e (Sum.inr i)))
        (List.ofFn (fun i : Fin P.N => servedWord (tape P.rest' (8 * P.m) (8 * P.N) B.2) bufSize (8 * P.m) i))) := by
    intro B
    rw [draws_eq P fl k n l hk, keyStream_ofFn, keyStream_ofFn]
    have a1 : (fun i : Fin k => tape P.rest P.pos P.M B.1 (P.pos + i)) = fun i => B.1 (e (Sum.inl i)) := by
      funext i
      exact tape_at _ _ _ _ _ (by omega)
    have a2 : (fun i : Fin (k * n) => tape P.rest P.pos P.M B.1 (P.pos + 16 + i)) = fun i => B.1 (e (Sum.inr i)) := by
      funext i
      rw [add_assoc]
      exact tape_at _ _ _ _ _ (by omega)
    rw [a1, a2]
    rfl
  rw [avg_congr h1]
  have h2 := avg_equiv (Equiv.prodCongr (Equiv.refl (Fin P.M → Byte))
    (Equiv.ofBijective _ (words_bijective P.rest' bufSize (8 * P.m) P.N (by decide))))
    (fun x : (Fin P.M → Byte) × (Fin P.N → BitVec 64) =>
      Φ (made fl l (fun i : Fin k => x.1 (e (Sum.inl i))) (fun i : Fin (k * n) => x.1 (e (Sum.inr i))) (List.ofFn x.2)))
  refine Eq.trans (Eq.trans rfl h2) ?_
  rw [avg_prod (fun x : (Fin P.M → Byte) × (Fin P.N → BitVec 64) =>
      Φ (made fl l (fun i : Fin k => x.1 (e (Sum.inl i))) (fun i : Fin (k * n) => x.1 (e (Sum.inr i))) (List.ofFn x.2)))]
  have h3 : ∀ W : Fin P.N → BitVec 64,
      avg (fun B : Fin P.M → Byte => Φ (made fl l (fun i : Fin k => B (e (Sum.inl i))) (fun i : Fin (k * n) => B (e (Sum.inr i))) (List.ofFn W)))
      = avg (fun y : (Fin k → Byte) × (Fin (k * n) → Byte) => Φ (made fl l y.1 y.2 (List.ofFn W))) := by
    intro W
    refine (avg_pick e he (fun y => Φ (made fl l (fun i : Fin k => y (Sum.inl i)) (fun i : Fin (k * n) => y (Sum.inr i)) (List.ofFn W)))).trans ?_
    exact avg_equiv (Equiv.sumArrowEquivProdArrow (Fin k) (Fin (k * n)) Byte)
      (fun y : (Fin k → Byte) × (Fin (k * n) → Byte) => Φ (made fl l y.1 y.2 (List.ofFn W)))
  rw [avg_congr h3]
  rw [← avg_prod (fun z : ((Fin k → Byte) × (Fin (k * n) → Byte)) × (Fin P.N → BitVec 64) => Φ (made fl l z.1.1 z.1.2 (List.ofFn z.2)))]
  exact avg_equiv (Equiv.prodAssoc (Fin k → Byte) (Fin (k * n) → Byte) (Fin P.N → BitVec 64))
    (fun x : (Fin k → Byte) × Sample k n P.N => Φ (made fl l x.1 x.2.1 (List.ofFn x.2.2)))

theorem made_ok {fl : ℚ → ℚ} {k n l : Nat} {τ : Fin k → Byte} {σ : Fin (k * n) → Byte} {ws : List (BitVec 64)} {c : Coins}
    (h : made fl l τ σ ws = ok c) : c = ⟨List.ofFn τ, List.ofFn σ, noiseFrom fl l ws⟩ := by
  unfold made at h
  obtain ⟨r, h1, h2⟩ := bind_eq_ok.1 h
  simp only [ok.injEq] at h2
  rw [← h2]
  unfold noiseFrom
  rw [h1]

theorem noiseFrom_length (fl : ℚ → ℚ) (l : Nat) (ws : List (BitVec 64)) : (noiseFrom fl l ws).length = l := by
  unfold noiseFrom
  split
  · rename_i r h
    exact samples_length fl _ _ _ _ (show gaussSamples fl l ws = ok (r.1, r.2) from h)
  · simp

theorem noiseFrom_bound (fl : ℚ → ℚ) (l : Nat) (ws : List (BitVec 64)) : ∀ g ∈ noiseFrom fl l ws, |g| ≤ 128 := by
  unfold noiseFrom
  split
  · rename_i r h
    intro g hg
    have := samples_bound fl _ _ _ _ (show gaussSamples fl l ws = ok (r.1, r.2) from h) g hg
    rw [Int.abs_eq_natAbs]
    exact_mod_cast this
  · intro g hg
    rw [(List.mem_replicate.1 hg).2]
    norm_num

/-- The chance that noise made from random words is too large for one of `C` columns. -/
theorem overflow_le {fl : ℚ → ℚ} (hf : Nearest fl) {w : Nat} (db : Db w) (hv : db.Valid) (lo hi : Int) (nz : Int → Int)
    (hnz : ∀ g, g - 1 ≤ nz g ∧ nz g ≤ g) (h0 : nz 0 = 0) (hlo : 0 ≤ lo) (hhi : 0 ≤ hi)
    (hb : ∀ x : Int, |x| < 84 * (db.numRows : Int) → -lo ≤ x ∧ x ≤ hi) (ks : Finset Nat) (N : Nat) {A : Type} [Fintype A] :
    avg (fun x : A × (Fin N → BitVec 64) => indicator (Overflow lo hi nz db ks (noiseFrom fl db.numRows (List.ofFn x.2))))
      ≤ 2 * ks.card / 2 ^ (38 * db.numRows) := by
  classical
  refine (avg_snd_le (fun W : Fin N → BitVec 64 => indicator (Overflow lo hi nz db ks (noiseFrom fl db.numRows (List.ofFn W))))
    (fun W => by unfold indicator; positivity)).trans ?_
  have hm : ∀ j i, storedBit db.matrix i j ≤ 1 := fun j i => by
    rcases bit_cases (w := w) hv.bin i j with h | h <;> omega
  obtain ⟨f, hf1⟩ : ∃ f : Nat → Nat, ∀ k ∈ ks, ∃ j < ks.card, f j = k := by
    refine ⟨fun j => (ks.toList).getD j 0, fun k hk => ?_⟩
    obtain ⟨j, hj, e⟩ := List.getElem_of_mem (Finset.mem_toList.2 hk)
    refine ⟨j, by simpa using hj, ?_⟩
    dsimp only
    rw [getD_get _ _ hj, e]
  have h := mean_large hf N db.numRows 1 ks.card (fun j i => storedBit db.matrix i (f j)) (fun j i => hm _ _) nz hnz
  rw [Nat.one_mul, Nat.cast_one, one_mul] at h
  refine le_trans ?_ h
  refine avg_mono (fun W => ?_)
  unfold indicator
  split
  · rename_i hov
    refine le_of_eq ?_
    dsimp only
    rw [if_pos]
    obtain ⟨k, hk, hno⟩ := hov
    unfold noiseFrom at hno
    split at hno
    · rename_i r hr
      refine ⟨r.1, r.2, hr, fun hs => hno ?_⟩
      obtain ⟨j, hj, e⟩ := hf1 k hk
      refine hb _ ?_
      have hl := samples_length fl _ _ _ _ (show gaussSamples fl db.numRows (List.ofFn W) = ok (r.1, r.2) from hr)
      have := hs 0 (by omega) j hj
      unfold blockNoise at this
      unfold columnNoise
      dsimp only at this ⊢
      rw [e] at this
      convert this using 2
      refine Finset.sum_congr rfl (fun x hx => ?_)
      rw [block_getD _ _ _ _ (Finset.mem_range.1 hx), Nat.zero_mul, Nat.zero_add]
    · exfalso
      refine hno ?_
      have : columnNoise (fun r => nz ((List.replicate db.numRows (0 : Int)).getD r 0)) db.matrix db.numRows k = 0 := by
        unfold columnNoise
        refine Finset.sum_eq_zero (fun r hr => ?_)
        dsimp only
        rw [getD_get _ _ (by simpa using hr)]
        simp [h0]
      rw [this]
      omega
  · dsimp only
    split <;> norm_num

end Verif.LweReal
