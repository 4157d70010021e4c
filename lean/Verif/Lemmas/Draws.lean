import Verif.Lemmas.LweChance

/-! # Lemmas: sequences of draws; uniform multipliers given the noise -/

namespace Verif.Coins
open Res Verif.Rand Verif.Rand.Spec Verif.Matrix Verif.Lwe Verif.Gauss Verif.Gauss.Spec Verif.Privacy Verif.Coins.Spec
open Verif.Fss Verif.Forge Verif.Monitor.Spec

/-! ### Conditional chances -/

/-- Every value of `T` is equally likely. -/
def Fair {A V : Type} [Fintype A] [Fintype V] (T : A → V) : Prop := ∀ φ : V → ℚ, avg (fun a => φ (T a)) = avg φ

theorem avg_mem {V : Type} [Fintype V] [DecidableEq V] (Y : Finset V) :
    avg (fun v : V => if v ∈ Y then (1 : ℚ) else 0) = Y.card / Fintype.card V := by
  unfold avg
  rw [Finset.sum_ite_mem, Finset.univ_inter]
  simp

theorem avg_swap {A B : Type} [Fintype A] [Fintype B] (f : A → B → ℚ) :
    avg (fun x : A × B => f x.1 x.2) = avg (fun b : B => avg (fun a : A => f a b)) := by
  rw [← avg_equiv (Equiv.prodComm B A), avg_prod']
  rfl

theorem avg_second {A B : Type} [Fintype A] [Nonempty A] [Fintype B] (f : B → ℚ) :
    avg (fun x : A × B => f x.2) = avg f := by
  rw [avg_swap (fun _ b => f b)]
  exact avg_congr (fun b => avg_const _)

open Classical in
theorem cond_le {A B V : Type} [Fintype A] [Nonempty A] [Fintype B] [Nonempty B] [Fintype V] (T : A → V) (hT : Fair T)
    (E : A → B → Prop) (Bad : B → Prop) (Y : B → Finset V) (y : Nat) (hY : ∀ b, ¬ Bad b → (Y b).card ≤ y)
    (h : ∀ a b, ¬ Bad b → E a b → T a ∈ Y b) :
    avg (fun x : A × B => if E x.1 x.2 then (1 : ℚ) else 0)
      ≤ (y : ℚ) / Fintype.card V + avg (fun b => if Bad b then (1 : ℚ) else 0) := by
  have h1 : ∀ x : A × B, (if E x.1 x.2 then (1 : ℚ) else 0)
      ≤ (if ¬ Bad x.2 ∧ T x.1 ∈ Y x.2 then 1 else 0) + if Bad x.2 then 1 else 0 := by
    intro x
    by_cases hb : Bad x.2
    · rw [if_pos hb]
      split <;> split <;> norm_num
    · by_cases hE : E x.1 x.2
      · rw [if_pos hE, if_pos ⟨hb, h _ _ hb hE⟩]
        split <;> norm_num
      · rw [if_neg hE]
        positivity
  refine (avg_mono h1).trans ?_
  rw [← avg_add, avg_second (A := A) (fun b => if Bad b then (1 : ℚ) else 0)]
  refine add_le_add_left ?_ _
  rw [avg_swap (fun a b => if ¬ Bad b ∧ T a ∈ Y b then (1 : ℚ) else 0)]
  refine avg_le (fun b => ?_)
  by_cases hb : Bad b
  · rw [avg_congr (fun a => if_neg (fun h => h.1 hb)), avg_const]
    positivity
  · rw [avg_congr (g := fun a => if T a ∈ Y b then (1 : ℚ) else 0) (fun a => if_congr ⟨fun h => h.2, fun h => ⟨hb, h⟩⟩ rfl rfl)]
    rw [hT (fun v => if v ∈ Y b then (1 : ℚ) else 0), avg_mem]
    gcongr
    exact hY b hb

open Classical in
theorem cond_ge {A B V : Type} [Fintype A] [Nonempty A] [Fintype B] [Nonempty B] [Fintype V] (T : A → V) (hT : Fair T)
    (E : A → B → Prop) (Good : B → Prop) (Y : B → Finset V) (y : Nat) (hY : ∀ b, Good b → y ≤ (Y b).card)
    (h : ∀ a b, Good b → T a ∈ Y b → E a b) :
    (y : ℚ) / Fintype.card V * avg (fun b => if Good b then (1 : ℚ) else 0)
      ≤ avg (fun x : A × B => if E x.1 x.2 then (1 : ℚ) else 0) := by
  rw [← avg_scale, avg_swap (fun a b => if E a b then (1 : ℚ) else 0)]
  refine avg_mono (fun b => ?_)
  by_cases hb : Good b
  · rw [if_pos hb, mul_one]
    have e : avg (fun a => if T a ∈ Y b then (1 : ℚ) else 0) = (Y b).card / Fintype.card V := by
      rw [hT (fun v => if v ∈ Y b then (1 : ℚ) else 0), avg_mem]
    refine le_trans ?_ (le_trans (le_of_eq e.symm) (avg_mono (fun a => ?_)))
    · gcongr
      exact hY b hb
    · by_cases ht : T a ∈ Y b
      · rw [if_pos ht, if_pos (h a b hb ht)]
      · rw [if_neg ht]
        positivity
  · rw [if_neg hb, mul_zero]
    exact avg_nonneg (fun a => by positivity)

/-! ### Multipliers -/

/-- Bytes a base client consumes. -/
def stride (k n : Nat) : Nat := 16 + if k * n < 16 then 16 else k * n

/-- The multipliers of `r` base clients. -/
def multipliers (k n r : Nat) (ks : Nat → Byte) (pos : Nat) (i : Fin r) : Fin (2 ^ (8 * k)) :=
  Fin.ofNat (2 ^ (8 * k)) (ofLE (keyStream ks (pos + i * stride k n) k))

theorem pow256 (k : Nat) : (2 : Nat) ^ (8 * k) = 256 ^ k := by rw [pow_mul]; norm_num

theorem keyStream_val (k : Nat) (ks : Nat → Byte) (pos : Nat) : ofLE (keyStream ks pos k) < 2 ^ (8 * k) := by
  rw [pow256]
  have := ofLE_lt (keyStream ks pos k)
  rwa [keyStream_length] at this

theorem multipliers_val (k n r : Nat) (ks : Nat → Byte) (pos : Nat) (i : Fin r) :
    (multipliers k n r ks pos i).val = ofLE (keyStream ks (pos + i * stride k n) k) := by
  unfold multipliers
  exact Nat.mod_eq_of_lt (keyStream_val _ _ _)

theorem fair_multipliers (k n r : Nat) (hk : k ≤ 16) (rest : Nat → Byte) (pos M : Nat) (hM : r * stride k n ≤ M) :
    Fair (fun B : Fin M → Byte => multipliers k n r (tape rest pos M B) pos) := by
  classical
  have hs : 16 < stride k n := by
    unfold stride
    split <;> omega
  intro φ
  -- the chance of one value
  have key : ∀ v : Fin r → Fin (2 ^ (8 * k)),
      avg (fun B : Fin M → Byte => if multipliers k n r (tape rest pos M B) pos = v then (1 : ℚ) else 0)
        = 1 / Fintype.card (Fin r → Fin (2 ^ (8 * k))) := by
    intro v
    have hg := avg_given (X := Byte) (M := M) (fun q => q / stride k n < r ∧ q % stride k n < k)
      (fun q => if h : q / stride k n < r then (leBytes k (v ⟨q / stride k n, h⟩).val).getD (q % stride k n) 0 else 0)
    have hc : ((Finset.range M).filter (fun q => q / stride k n < r ∧ q % stride k n < k)).card = r * k := by
      have : (Finset.range M).filter (fun q => q / stride k n < r ∧ q % stride k n < k)
          = (Finset.range r ×ˢ Finset.range k).image (fun x => x.1 * stride k n + x.2) := by
        ext q
        simp only [Finset.mem_filter, Finset.mem_range, Finset.mem_image, Finset.mem_product, Prod.exists]
        constructor
        · rintro ⟨_, h1, h2⟩
          exact ⟨q / stride k n, q % stride k n, ⟨h1, h2⟩, Nat.div_add_mod' q _⟩
        · rintro ⟨i, j, ⟨h1, h2⟩, rfl⟩
          have hj : j < stride k n := by omega
          have e1 : (i * stride k n + j) / stride k n = i := by
            rw [mul_comm, Nat.mul_add_div (by omega), Nat.div_eq_of_lt hj, Nat.add_zero]
          have e2 : (i * stride k n + j) % stride k n = j := by
            rw [mul_comm, Nat.mul_add_mod, Nat.mod_eq_of_lt hj]
          refine ⟨?_, by rw [e1]; exact h1, by rw [e2]; exact h2⟩
          have : (i + 1) * stride k n ≤ r * stride k n := Nat.mul_le_mul_right _ h1
          rw [Nat.add_mul, Nat.one_mul] at this
          omega
      rw [this, Finset.card_image_of_injOn, Finset.card_product, Finset.card_range, Finset.card_range]
      rintro ⟨i, j⟩ h1 ⟨i', j'⟩ h2 he
      simp only [Finset.coe_product, Finset.coe_range, Set.mem_prod, Set.mem_Iio] at h1 h2 he
      have hj : j < stride k n := by omega
      have hj' : j' < stride k n := by omega
      have e1 := congrArg (· / stride k n) he
      have e2 := congrArg (· % stride k n) he
      rw [mul_comm, Nat.mul_add_div (by omega), Nat.div_eq_of_lt hj, mul_comm i', Nat.mul_add_div (by omega),
        Nat.div_eq_of_lt hj'] at e1
      rw [mul_comm, Nat.mul_add_mod, Nat.mod_eq_of_lt hj, mul_comm i', Nat.mul_add_mod, Nat.mod_eq_of_lt hj'] at e2
      exact Prod.ext (by simpa using e1) e2
    rw [hc] at hg
    have e : (1 / (Fintype.card Byte : ℚ)) ^ (r * k) = 1 / (Fintype.card (Fin r → Fin (2 ^ (8 * k))) : ℚ) := by
      rw [Fintype.card_fun, Fintype.card_fin, Fintype.card_fin, show Fintype.card Byte = 2 ^ 8 from card_word 8, one_div_pow]
      rw [Nat.cast_pow, Nat.cast_pow, ← pow_mul, Nat.cast_pow, ← pow_mul]
      congr 2
      ring
    rw [← e, ← hg]
    refine avg_congr (fun B => if_congr ?_ rfl rfl)
    have h1 : multipliers k n r (tape rest pos M B) pos = v ↔
        ∀ i : Fin r, ∀ j < k, tape rest pos M B (pos + (i * stride k n + j)) = (leBytes k (v i).val).getD j 0 := by
      rw [funext_iff]
      refine forall_congr' (fun i => ?_)
      rw [Fin.ext_iff, multipliers_val]
      have : ofLE (keyStream (tape rest pos M B) (pos + i * stride k n) k) = (v i).val ↔
          keyStream (tape rest pos M B) (pos + i * stride k n) k = leBytes k (v i).val := by
        have hv : (v i).val < 256 ^ k := by rw [← pow256]; exact (v i).isLt
        constructor
        · intro h
          refine ofLE_inj (by simp) ?_
          rw [h, ofLE_leBytes, Nat.mod_eq_of_lt hv]
        · intro h
          rw [h, ofLE_leBytes, Nat.mod_eq_of_lt hv]
      rw [this, list_iff _ k (by simp) _ (leBytes_len _ _)]
      refine forall_congr' (fun j => forall_congr' (fun hj => ?_))
      rw [keyStream_getD _ _ _ _ hj, Nat.add_assoc]
    rw [h1]
    constructor
    · rintro h q ⟨h2, h3⟩
      have := h ⟨q.val / stride k n, h2⟩ (q.val % stride k n) h3
      rw [Nat.div_add_mod', tape_at _ _ _ _ _ q.isLt] at this
      rw [dif_pos h2]
      exact this
    · intro h i j hj
      have hjs : j < stride k n := by omega
      have hq : i * stride k n + j < M := by
        have : (i + 1) * stride k n ≤ r * stride k n := Nat.mul_le_mul_right _ i.isLt
        rw [Nat.add_mul, Nat.one_mul] at this
        omega
      have e1 : (i * stride k n + j) / stride k n = i := by
        rw [mul_comm, Nat.mul_add_div (by omega), Nat.div_eq_of_lt hjs, Nat.add_zero]
      have e2 : (i * stride k n + j) % stride k n = j := by
        rw [mul_comm, Nat.mul_add_mod, Nat.mod_eq_of_lt hjs]
      rw [tape_at _ _ _ _ _ hq]
      have := h ⟨i * stride k n + j, hq⟩ ⟨by simp only [e1]; exact i.isLt, by simp only [e2]; exact hj⟩
      rw [this]
      simp only [e1, e2, Fin.is_lt, dite_true, Fin.eta]
  have e : ∀ B : Fin M → Byte, φ (multipliers k n r (tape rest pos M B) pos)
      = ∑ v, φ v * if multipliers k n r (tape rest pos M B) pos = v then 1 else 0 := by
    intro B
    simp
  rw [avg_congr e]
  have hsw : avg (fun B : Fin M → Byte => ∑ v, φ v * if multipliers k n r (tape rest pos M B) pos = v then (1 : ℚ) else 0)
      = ∑ v, φ v * avg (fun B : Fin M → Byte => if multipliers k n r (tape rest pos M B) pos = v then (1 : ℚ) else 0) := by
    unfold avg
    rw [Finset.sum_comm, Finset.sum_div]
    refine Finset.sum_congr rfl (fun v _ => ?_)
    rw [← Finset.mul_sum, mul_div_assoc]
  rw [hsw, Finset.sum_congr rfl (fun v _ => by rw [key v]), ← Finset.sum_mul]
  unfold avg
  rw [mul_one_div]

/-! ### The draws of several base clients -/

theorem read_pos (ks : Nat → Byte) (pos n : Nat) :
    Prg.read ⟨ks, pos⟩ (List.replicate n 0) = (keyStream ks pos n, ⟨ks, pos + if n < 16 then 16 else n⟩) := by
  unfold Prg.read xorKeyStream
  by_cases h : n < 16
  · simp only [List.length_replicate, h, if_true]
    rw [zipWith_xor_zero _ _ (by simp), keyStream_take _ _ _ _ (by omega)]
    simp [show n - 16 = 0 by omega]
  · simp only [List.length_replicate, h, if_false]
    rw [zipWith_xor_zero _ _ (by simp)]

theorem samples_add (fl : ℚ → ℚ) (b : Nat) : ∀ (a : Nat) (ws : List (BitVec 64)), gaussSamples fl (a + b) ws = (do
    let (g, ws) ← gaussSamples fl a ws
    let (h, ws) ← gaussSamples fl b ws
    ok (g ++ h, ws)) := by
  intro a
  induction a with
  | zero =>
    intro ws
    rw [Nat.zero_add, gaussSamples, ok_bind]
    dsimp only
    cases gaussSamples fl b ws <;> rfl
  | succ a ih =>
    intro ws
    rw [Nat.succ_add, gaussSamples, gaussSamples]
    cases gaussSample fl ws with
    | ok r =>
      simp only [ok_bind]
      rw [ih]
      cases gaussSamples fl a r.2 with
      | ok r' =>
        simp only [ok_bind]
        cases gaussSamples fl b r'.2 <;> rfl
      | err _ => rfl
      | crash _ => rfl
    | err _ => rfl
    | crash _ => rfl

/-- What the base clients draw from the key stream and from samples. -/
def dealt (k n l r : Nat) (ks : Nat → Byte) (pos : Nat) (gs : List Int) : List Coins :=
  (List.range r).map (fun i => ⟨keyStream ks (pos + i * stride k n) k, keyStream ks (pos + i * stride k n + 16) (k * n),
    (gs.drop (i * l)).take l⟩)

theorem drawMany_eq (fl : ℚ → ℚ) (k n l : Nat) (hk : k ≤ 16) (ks : Nat → Byte) : ∀ (r pos : Nat) (ws : List (BitVec 64)),
    drawMany fl k n l r ⟨ks, pos⟩ ws = (do
      let (gs, _) ← gaussSamples fl (r * l) ws
      ok (dealt k n l r ks pos gs)) := by
  intro r
  induction r with
  | zero =>
    intro pos ws
    simp [drawMany, gaussSamples, dealt]
  | succ r ih =>
    intro pos ws
    rw [drawMany, show (r + 1) * l = l + r * l by ring, samples_add]
    simp only [read_pos]
    have hp : pos + (if k < 16 then 16 else k) + (if k * n < 16 then 16 else k * n) = pos + stride k n := by
      unfold stride
      split <;> omega
    have hp1 : pos + (if k < 16 then 16 else k) = pos + 16 := by
      split <;> omega
    cases h : gaussSamples fl l ws with
    | ok s =>
      simp only [ok_bind]
      rw [hp, ih]
      cases gaussSamples fl (r * l) s.2 with
      | ok s' =>
        simp only [ok_bind, ok.injEq]
        have hl := samples_length fl _ _ _ _ (show gaussSamples fl l ws = ok (s.1, s.2) from h)
        unfold dealt
        rw [List.range_succ_eq_map, List.map_cons, List.map_map, hp1]
        congr 1
        · simp only [Nat.zero_mul, Nat.add_zero, List.drop_zero]
          rw [← hl, List.take_left]
        · refine List.map_congr_left (fun i _ => ?_)
          simp only [Function.comp, Nat.succ_mul]
          rw [show pos + stride k n + i * stride k n = pos + (i * stride k n + stride k n) by ring,
            show i * l + l = s.1.length + i * l by omega, List.drop_append]
          rw [List.drop_eq_nil_of_le (as := s.1) (by omega), List.nil_append, Nat.add_sub_cancel_left]
      | err _ => rfl
      | crash _ => rfl
    | err _ => rfl
    | crash _ => rfl

theorem amplifiedDraws_eq (P : Past) (fl : ℚ → ℚ) (n l t : Nat) (B : Fin P.M → Byte) (B' : Fin (8 * P.N) → Byte) :
    amplifiedDraws P fl n l t B B' = (do
      let (gs, _) ← gaussSamples fl ((2 * t + 1) * l)
        (List.ofFn (fun i : Fin P.N => servedWord (tape P.rest' (8 * P.m) (8 * P.N) B') bufSize (8 * P.m) i))
      ok (dealt 4 n l (2 * t + 1) (tape P.rest P.pos P.M B) P.pos gs)) := by
  obtain ⟨us, b, us', b', h1, h2, h3⟩ := shared_words (tape P.rest' (8 * P.m) (8 * P.N) B') P.m P.N
  unfold amplifiedDraws drawAmplified
  rw [h1]
  dsimp only
  rw [h2]
  dsimp only
  rw [h3, drawMany_eq _ _ _ _ (by norm_num)]

/-! ### Noise of several base clients -/

theorem prod_block (f : Nat → ℚ) (r i l : Nat) (hi : i < r) :
    ∏ q ∈ Finset.range (r * l), (if i * l ≤ q ∧ q < i * l + l then f (q - i * l) else 1) = ∏ x ∈ Finset.range l, f x := by
  rw [← Finset.prod_filter]
  have : (Finset.range (r * l)).filter (fun q => i * l ≤ q ∧ q < i * l + l) = (Finset.range l).image (fun x => i * l + x) := by
    ext q
    simp only [Finset.mem_filter, Finset.mem_range, Finset.mem_image]
    constructor
    · rintro ⟨-, h1, h2⟩
      exact ⟨q - i * l, by omega, by omega⟩
    · rintro ⟨x, hx, rfl⟩
      have : (i + 1) * l ≤ r * l := Nat.mul_le_mul_right _ hi
      rw [Nat.add_mul, Nat.one_mul] at this
      omega
  rw [this, Finset.prod_image (by intro a _ b _ h; simpa using h)]
  exact Finset.prod_congr rfl (fun x _ => by rw [Nat.add_sub_cancel_left])

theorem valueOf_one (fl : ℚ → ℚ) : valueOf fl (fun _ => 1) = total fl := by
  unfold valueOf total
  refine Finset.sum_congr rfl (fun x _ => ?_)
  ring

theorem samples_weigh_le' {fl : ℚ → ℚ} (hf : Nearest fl) (l : Nat) (φ : Nat → Int → ℚ) (n : Nat) (h : ∀ i g, 0 ≤ φ i g) (c : Nat → ℚ)
    (hc : ∀ i < l, valueOf fl (φ i) ≤ c i * total fl) :
    mean n (fun ws => weigh (weights φ) (gaussSamples fl l ws)) ≤ ∏ i ∈ Finset.range l, c i := by
  have ht : 0 < total fl := by linarith [total_ge hf]
  rw [samples_weigh]
  have h1 : ∏ i ∈ Finset.range l, valueOf fl (φ i) ≤ ∏ i ∈ Finset.range l, (c i * total fl) :=
    Finset.prod_le_prod (fun i _ => valueOf_nonneg fl (h i)) (fun i hi => hc i (Finset.mem_range.1 hi))
  have h0 : 0 ≤ ∏ i ∈ Finset.range l, valueOf fl (φ i) := Finset.prod_nonneg (fun i _ => valueOf_nonneg fl (h i))
  calc (∏ i ∈ Finset.range l, valueOf fl (φ i)) * amounts fl l n
      ≤ (∏ i ∈ Finset.range l, valueOf fl (φ i)) * (1 / total fl ^ l) :=
        mul_le_mul_of_nonneg_left (amounts_le fl ht l n) h0
    _ ≤ (∏ i ∈ Finset.range l, (c i * total fl)) * (1 / total fl ^ l) := mul_le_mul_of_nonneg_right h1 (by positivity)
    _ = ∏ i ∈ Finset.range l, c i := by
        rw [Finset.prod_mul_distrib, Finset.prod_const, Finset.card_range]
        field_simp

/-- The samples of base client `i`. -/
def block (l i : Nat) (gs : List Int) : List Int := (gs.drop (i * l)).take l

theorem block_length (l i r : Nat) (gs : List Int) (hi : i < r) (h : gs.length = r * l) : (block l i gs).length = l := by
  unfold block
  rw [List.length_take, List.length_drop, h]
  have : (i + 1) * l ≤ r * l := Nat.mul_le_mul_right _ hi
  rw [Nat.add_mul, Nat.one_mul] at this
  omega

theorem block_getD (l i x : Nat) (gs : List Int) (hx : x < l) : (block l i gs).getD x 0 = gs.getD (i * l + x) 0 := by
  unfold block
  simp only [List.getD_eq_getElem?_getD, List.getElem?_take, List.getElem?_drop, hx, if_true]

theorem weights_block (φ : Nat → Int → ℚ) (l i r : Nat) (gs : List Int) (hi : i < r) (h : gs.length = r * l) :
    weights (fun q g => if i * l ≤ q ∧ q < i * l + l then φ (q - i * l) g else 1) gs = weights φ (block l i gs) := by
  unfold weights
  rw [block_length l i r gs hi h, h]
  rw [← prod_block (fun x => φ x ((block l i gs).getD x 0)) r i l hi]
  refine Finset.prod_congr rfl (fun q _ => ?_)
  dsimp only
  split
  · rename_i hq
    rw [block_getD _ _ _ _ (by omega), show i * l + (q - i * l) = q by omega]
  · rfl

/-- The noise of one column in base client `i`. -/
def blockNoise (ν : Int → Int) (m : Nat → Nat) (l i : Nat) (gs : List Int) : Int :=
  ∑ x ∈ Finset.range l, ν ((block l i gs).getD x 0) * (m x : Int)

open Classical in
theorem mean_block {fl : ℚ → ℚ} (hf : Nearest fl) (N l r i : Nat) (hi : i < r) (up : Bool) (m : Nat → Nat)
    (hm : ∀ i, m i ≤ 1) (ν : Int → Int) (hν : ∀ g, g - 1 ≤ ν g ∧ ν g ≤ g) :
    mean N (fun ws => if ∃ gs rest, gaussSamples fl (r * l) ws = ok (gs, rest) ∧
      84 * (l : Int) ≤ (if up then blockNoise ν m l i gs else -blockNoise ν m l i gs) then (1 : ℚ) else 0)
      ≤ 1 / 2 ^ (38 * l) := by
  have hpos : ∀ q g, 0 ≤ (fun q g => if i * l ≤ q ∧ q < i * l + l then tilt up (m (q - i * l)) g else 1) q g := by
    intro q g
    dsimp only
    split
    · exact (tilt_pos _ _ _).le
    · norm_num
  have h1 := samples_weigh_le' hf (r * l) (fun q g => if i * l ≤ q ∧ q < i * l + l then tilt up (m (q - i * l)) g else 1) N hpos
    (fun q => if i * l ≤ q ∧ q < i * l + l then 1 / 2 ^ 38 else 1) (fun q _ => by
      by_cases hq : i * l ≤ q ∧ q < i * l + l
      · simp only [hq, and_self, if_true]
        exact tilt_value hf up _ (hm _)
      · simp only [hq, if_false, one_mul]
        exact (valueOf_one fl).le)
  rw [prod_block (fun _ => 1 / 2 ^ 38) r i l hi, Finset.prod_const, Finset.card_range, one_div_pow, ← pow_mul] at h1
  refine le_trans (avg_mono (fun W => ?_)) h1
  dsimp only
  by_cases h : ∃ gs rest, gaussSamples fl (r * l) (List.ofFn W) = ok (gs, rest) ∧
      84 * (l : Int) ≤ (if up then blockNoise ν m l i gs else -blockNoise ν m l i gs)
  · rw [if_pos h]
    obtain ⟨gs, rest, h2, h3⟩ := h
    have hl := samples_length fl _ _ _ _ h2
    rw [h2]
    unfold weigh
    dsimp only
    rw [weights_block (fun x => tilt up (m x)) l i r gs hi hl]
    exact one_le_tilts up m hm ν hν (block l i gs) l (block_length l i r gs hi hl) h3
  · rw [if_neg h]
    unfold weigh
    split
    · exact Finset.prod_nonneg (fun q _ => hpos q _)
    · exact le_refl _

/-- In all base clients and columns the noise is small. -/
def Small (ν : Int → Int) (m : Nat → Nat → Nat) (l r C : Nat) (gs : List Int) : Prop :=
  ∀ i < r, ∀ j < C, |blockNoise ν (m j) l i gs| < 84 * (l : Int)

open Classical in
theorem mean_large {fl : ℚ → ℚ} (hf : Nearest fl) (N l r C : Nat) (m : Nat → Nat → Nat)
    (hm : ∀ j i, m j i ≤ 1) (ν : Int → Int) (hν : ∀ g, g - 1 ≤ ν g ∧ ν g ≤ g) :
    mean N (fun ws => if ∃ gs rest, gaussSamples fl (r * l) ws = ok (gs, rest) ∧ ¬ Small ν m l r C gs then (1 : ℚ) else 0)
      ≤ r * (2 * C) / 2 ^ (38 * l) := by
  have h1 : ∀ ws : List (BitVec 64), (if ∃ gs rest, gaussSamples fl (r * l) ws = ok (gs, rest) ∧ ¬ Small ν m l r C gs then (1 : ℚ) else 0)
      ≤ ∑ x ∈ Finset.range r ×ˢ (Finset.range C ×ˢ (Finset.univ : Finset Bool)),
        if ∃ gs rest, gaussSamples fl (r * l) ws = ok (gs, rest) ∧
          84 * (l : Int) ≤ (if x.2.2 then blockNoise ν (m x.2.1) l x.1 gs else -blockNoise ν (m x.2.1) l x.1 gs) then (1 : ℚ) else 0 := by
    intro ws
    split
    · rename_i h
      obtain ⟨gs, rest, h2, h3⟩ := h
      unfold Small at h3
      push Not at h3
      obtain ⟨i, hi, j, hj, h3⟩ := h3
      obtain ⟨up, hup⟩ : ∃ up : Bool, 84 * (l : Int) ≤ (if up then blockNoise ν (m j) l i gs else -blockNoise ν (m j) l i gs) := by
        rcases le_abs.1 h3 with h4 | h4
        · exact ⟨true, by simpa using h4⟩
        · exact ⟨false, by simpa using h4⟩
      refine le_trans ?_ (Finset.single_le_sum (f := fun x : Nat × Nat × Bool =>
        if ∃ gs rest, gaussSamples fl (r * l) ws = ok (gs, rest) ∧
          84 * (l : Int) ≤ (if x.2.2 then blockNoise ν (m x.2.1) l x.1 gs else -blockNoise ν (m x.2.1) l x.1 gs) then (1 : ℚ) else 0)
        (fun x _ => by positivity) (show (i, j, up) ∈ _ by simp [hi, hj]))
      rw [if_pos ⟨gs, rest, h2, hup⟩]
    · exact Finset.sum_nonneg (fun x _ => by positivity)
  refine (avg_mono (fun W => h1 (List.ofFn W))).trans ?_
  have hs : avg (fun W : Fin N → BitVec 64 => ∑ x ∈ Finset.range r ×ˢ (Finset.range C ×ˢ (Finset.univ : Finset Bool)),
        if ∃ gs rest, gaussSamples fl (r * l) (List.ofFn W) = ok (gs, rest) ∧
          84 * (l : Int) ≤ (if x.2.2 then blockNoise ν (m x.2.1) l x.1 gs else -blockNoise ν (m x.2.1) l x.1 gs) then (1 : ℚ) else 0)
      = ∑ x ∈ Finset.range r ×ˢ (Finset.range C ×ˢ (Finset.univ : Finset Bool)), mean N (fun ws =>
        if ∃ gs rest, gaussSamples fl (r * l) ws = ok (gs, rest) ∧
          84 * (l : Int) ≤ (if x.2.2 then blockNoise ν (m x.2.1) l x.1 gs else -blockNoise ν (m x.2.1) l x.1 gs) then (1 : ℚ) else 0) := by
    unfold mean avg
    rw [Finset.sum_comm, Finset.sum_div]
  rw [hs]
  refine (Finset.sum_le_card_nsmul _ _ (1 / 2 ^ (38 * l)) ?_).trans (le_of_eq ?_)
  · rintro ⟨i, j, up⟩ hx
    simp only [Finset.mem_product, Finset.mem_range] at hx
    exact mean_block hf N l r i hx.1 up (m j) (hm j) ν hν
  · rw [Finset.card_product, Finset.card_product, Finset.card_range, Finset.card_range, Finset.card_univ, Fintype.card_bool,
      nsmul_eq_mul]
    push_cast
    ring

open Classical in
theorem mean_small {fl : ℚ → ℚ} (hf : Nearest fl) (N l r C c : Nat) (hc : 4 ≤ c) (hN : c * (r * l) ≤ N) (m : Nat → Nat → Nat)
    (hm : ∀ j i, m j i ≤ 1) (ν : Int → Int) (hν : ∀ g, g - 1 ≤ ν g ∧ ν g ≤ g) :
    1 - r * l * (11 / 10 * (97 / 100) ^ c) - r * (2 * C) / 2 ^ (38 * l)
      ≤ mean N (fun ws => if ∃ gs rest, gaussSamples fl (r * l) ws = ok (gs, rest) ∧ Small ν m l r C gs then (1 : ℚ) else 0) := by
  have h1 := mean_large hf N l r C m hm ν hν
  obtain ⟨q, -, h⟩ := C104_noise fl hf
  have h2 := ((h c N hc).2 (r * l) hN).1
  have h3 : (1 : ℚ) ≤ Gauss.Spec.part N (fun ws => ¬ ∃ gs rest, gaussSamples fl (r * l) ws = ok (gs, rest))
      + mean N (fun ws => if ∃ gs rest, gaussSamples fl (r * l) ws = ok (gs, rest) ∧ ¬ Small ν m l r C gs then (1 : ℚ) else 0)
      + mean N (fun ws => if ∃ gs rest, gaussSamples fl (r * l) ws = ok (gs, rest) ∧ Small ν m l r C gs then (1 : ℚ) else 0) := by
    unfold Gauss.Spec.part mean
    rw [avg_add, avg_add]
    refine le_trans (le_of_eq (avg_const (Ω := Fin N → BitVec 64) (1 : ℚ)).symm) (avg_mono (fun W => ?_))
    dsimp only
    by_cases h4 : ∃ gs rest, gaussSamples fl (r * l) (List.ofFn W) = ok (gs, rest)
    · obtain ⟨gs, rest, h5⟩ := h4
      by_cases h6 : Small ν m l r C gs
      · rw [if_pos (show ∃ gs rest, gaussSamples fl (r * l) (List.ofFn W) = ok (gs, rest) ∧ Small ν m l r C gs from ⟨gs, rest, h5, h6⟩)]
        have : ∀ a b : Prop, (1 : ℚ) ≤ (if a then 1 else 0) + (if b then 1 else 0) + 1 := by
          intro a b; split <;> split <;> norm_num
        exact this _ _
      · rw [if_pos (show ∃ gs rest, gaussSamples fl (r * l) (List.ofFn W) = ok (gs, rest) ∧ ¬ Small ν m l r C gs from ⟨gs, rest, h5, h6⟩)]
        have : ∀ a b : Prop, (1 : ℚ) ≤ (if a then 1 else 0) + 1 + (if b then 1 else 0) := by
          intro a b; split <;> split <;> norm_num
        exact this _ _
    · rw [if_pos h4]
      have : ∀ a b : Prop, (1 : ℚ) ≤ 1 + (if a then 1 else 0) + (if b then 1 else 0) := by
        intro a b; split <;> split <;> norm_num
      exact this _ _
  push_cast at h2
  linarith

end Verif.Coins
