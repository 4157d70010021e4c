import Verif.Lemmas.DhStream
import Verif.Props.History
import Verif.Props.Dh

/-! # C148, C149, C150: sessions of lookups of the group scheme by one client that draws from its own generator -/

namespace Verif.DhStream
open Res Finset Verif.Rand Verif.Dh Verif.Dh.Spec Verif.Privacy Verif.Reaction Verif.History Verif.Coins Verif.Coins.Spec
  Verif.DhStream.Spec

/-- C148: a client object of the group scheme makes `n` lookups one after the other, all from the same generator. The server chooses
the two entries of each lookup and its answers depending on all it saw. Whatever the generator delivered before, it tells a client
that takes the left entries from one that takes the right entries with no more than the expected sum of the advantages of four tests
per lookup against the Diffie-Hellman problem and of the chance of a guess. -/
def C148_Statement : Prop :=
  ∀ (G : Type) [AddCommGroup G] [DecidableEq G] [Fintype G] (s : Sampler) (g : Grp G) (db : Elliptic), Decodes g → Committed g db →
    (∀ i, i < db.info.numRows → (g.enc (rowSum db (hashIndexToGroup g) i)).length = db.info.elementSize) →
    0 < db.info.numColumns → db.info.numColumns ≤ 2 ^ 64 → ∀ ε : ℚ, Dh.Spec.Spread g db.info.numColumns (uniform s) ε →
    ∀ S : Server Nat (List Byte → Res (List Byte)) (Res (List Byte) × Res Unit), IsTest S.decide →
    ∀ (n : Nat) (rest : Nat → Byte) (pos M : Nat), n * (2 * max 16 s.bytes) ≤ M →
      |decision s g db.info rest pos M S false n - decision s g db.info rest pos M S true n| ≤
        total (seesFresh s g db.info) S (leak g db (uniform s) (uniform s) ε) n []

/-- C149: the part of the random bytes for which one of the `n` lookups of such a session gives a bit that is not stored is at most the
expected sum of the advantages of one test per lookup against the Diffie-Hellman problem and of the chance of a guess. -/
def C149_Statement : Prop :=
  ∀ (G : Type) [AddCommGroup G] [DecidableEq G] [Fintype G] (s : Sampler) (g : Grp G) (db : Elliptic), Decodes g →
    (FixedSize g db.info.elementSize ∨ ShortIdentity g db.info.elementSize) → Committed g db → db.info.numColumns ≤ 2 ^ 63 →
    ∀ ε : ℚ, Dh.Spec.Spread g db.info.numColumns (uniform s) ε →
    ∀ S : Server Nat (List Byte → Res (List Byte)) (Res (List Byte) × Res Unit),
    (∀ past, (S.choose past).left < db.info.numRows * db.info.numColumns) →
    ∀ (n : Nat) (rest : Nat → Byte) (pos M : Nat), n * (2 * max 16 s.bytes) ≤ M →
      wrongPart s g db rest pos M S n ≤
        total (seesFresh s g db.info) S (fun c _ => forge g db (uniform s) (uniform s) ε c) n []

/-- C150: an honest server fails to deliver one of `n` entries only with a small chance: `ε` per lookup in groups whose encodings have
one size, and `(1 + rows + columns) * ε` in groups that encode the neutral element in fewer bytes, if no row digest is neutral. -/
def C150_Statement : Prop :=
  ∀ (G : Type) [AddCommGroup G] [DecidableEq G] (s : Sampler) (g : Grp G) (db : Elliptic), Decodes g → Committed g db →
    db.info.numColumns ≤ 2 ^ 63 → (∀ y, y < db.info.numColumns → hashIndexToGroup g y ≠ 0) → ∀ ε : ℚ, SpreadAll s G ε →
    ∀ S : Server Nat (List Byte → Res (List Byte)) (Res (List Byte) × Res Unit),
    (∀ past, (S.choose past).left < db.info.numRows * db.info.numColumns) →
    ∀ (n : Nat) (rest : Nat → Byte) (pos M : Nat), n * (2 * max 16 s.bytes) ≤ M →
      (FixedSize g db.info.elementSize → missedPart s g db rest pos M S n ≤ n * ε) ∧
      (ShortIdentity g db.info.elementSize → (∀ i, i < db.info.numRows → rowSum db (hashIndexToGroup g) i ≠ 0) →
        missedPart s g db rest pos M S n ≤ n * ((1 + db.info.numRows + db.info.numColumns) * ε))

theorem stride_eq (s : Sampler) : stride s = 2 * max 16 s.bytes := by
  unfold stride PointStream.Spec.used
  split <;> omega

section
variable {G : Type} [AddCommGroup G] [DecidableEq G]

theorem watch_eq (s : Sampler) (g : Grp G) (info : Info) :
    watch s g info = fun i F rnd => (view g info F i (drawScalars s rnd).1.1 (drawScalars s rnd).1.2, (drawScalars s rnd).2) := rfl

theorem wrongBit_eq (s : Sampler) (g : Grp G) (db : Elliptic) :
    WrongBit s g db = fun i F rnd => ∃ b, retrieved g db.info F i (drawScalars s rnd).1.1 (drawScalars s rnd).1.2 = ok b ∧
      b ≠ if db.entries.getD i 0 = 1 then 1 else 0 := by
  funext i F rnd
  unfold WrongBit retrieved
  refine propext ⟨?_, ?_⟩
  · rintro ⟨q, st, a, b, h1, h2, h3, h4⟩
    refine ⟨b, ?_, h4⟩
    rw [show queryBytes g db.info (drawScalars s rnd).1.1 (drawScalars s rnd).1.2 i = ok (q, st) from h1, ok_bind]
    dsimp only
    rw [h2, ok_bind, h3]
  · rintro ⟨b, h, h4⟩
    obtain ⟨⟨q, st⟩, h1, h⟩ := bind_eq_ok.1 h
    obtain ⟨a, h2, h3⟩ := bind_eq_ok.1 h
    exact ⟨q, st, a, b, h1, h2, h3, h4⟩

/-- The decision is that over sessions with independent uniform bytes. -/
theorem C148_fresh (s : Sampler) (g : Grp G) (info : Info) (rest : Nat → Byte) (pos M : Nat)
    (S : Server Nat (List Byte → Res (List Byte)) (Res (List Byte) × Res Unit)) (right : Bool) (n : Nat)
    (hM : n * (2 * max 16 s.bytes) ≤ M) :
    decision s g info rest pos M S right n = session (seesFresh s g info) S right n [] := by
  rw [← stride_eq] at hM
  exact decides_avg (see := fun i F d => view g info F i d.1 d.2) s right n [] rest pos M hM
end

theorem C148_holds : C148_Statement := by
  intro G _ _ _ s g db hd hcom hfull hC hC64 ε hε S hD n rest pos M hM
  rw [C148_fresh s g db.info rest pos M S false n hM, C148_fresh s g db.info rest pos M S true n hM]
  exact C95_dh g db hd hcom hfull hC hC64 (uniform s) (uniform s) ε hε S hD n

theorem C149_holds : C149_Statement := by
  intro G _ _ _ s g db hd hsz hcom hC ε hε S hS n rest pos M hM
  rw [← stride_eq] at hM
  have h1 := goesWrong_avg (see := fun i F d => view g db.info F i d.1 d.2) (S := S) s
    (fun i F d => ∃ b, retrieved g db.info F i d.1 d.2 = ok b ∧ b ≠ if db.entries.getD i 0 = 1 then 1 else 0) n [] rest pos M hM
  unfold wrongPart
  rw [watch_eq, wrongBit_eq]
  exact h1.le.trans (C96_dh g db hd hsz hcom hC (uniform s) (uniform s) ε hε S hS n)

section
variable {G : Type} [AddCommGroup G] [DecidableEq G]

theorem missed_le (s : Sampler) (g : Grp G) (db : Elliptic)
    (S : Server Nat (List Byte → Res (List Byte)) (Res (List Byte) × Res Unit))
    (hS : ∀ past, (S.choose past).left < db.info.numRows * db.info.numColumns)
    (n : Nat) (rest : Nat → Byte) (pos M : Nat) (hM : n * (2 * max 16 s.bytes) ≤ M) (c : ℚ) (h0 : 0 ≤ c)
    (h : ∀ k, k < db.info.numRows * db.info.numColumns → avg (fun x : Bytes s × Bytes s => indicator (¬ ∃ q st a,
      queryBytes g db.info (uniform s x.2) (uniform s x.1) k = ok (q, st) ∧ answerBytes g db q = ok a ∧
        reconstructBytes g db.info st a = ok (if db.entries.getD k 0 = 1 then 1 else 0))) ≤ c) :
    missedPart s g db rest pos M S n ≤ n * c := by
  rw [← stride_eq] at hM
  have h1 := goesWrong_avg (see := fun i F d => view g db.info F i d.1 d.2) (S := S) s
    (fun i _ d => ¬ ∃ q st a, queryBytes g db.info d.1 d.2 i = ok (q, st) ∧ answerBytes g db q = ok a ∧
        reconstructBytes g db.info st a = ok (if db.entries.getD i 0 = 1 then 1 else 0)) n [] rest pos M hM
  have h2 : missedPart s g db rest pos M S n = _ := h1
  rw [h2]
  refine (everWrong_bound (bound := fun _ => c) (fun x => x.left < db.info.numRows * db.info.numColumns) hS ?_ n).trans
    (total_le _ S _ c h0 (fun _ _ => le_refl c) n [])
  intro x hx
  exact h x.left hx

theorem avg_snd {A B : Type} [Fintype A] [Fintype B] [Nonempty A] (f : A × B → ℚ) (c : ℚ) (h : ∀ a, avg (fun b => f (a, b)) ≤ c) :
    avg f ≤ c := by
  rw [avg_prod']
  exact Reaction.avg_le h

theorem avg_fst {A B : Type} [Fintype A] [Fintype B] [Nonempty B] (f : A × B → ℚ) (c : ℚ) (h : ∀ b, avg (fun a => f (a, b)) ≤ c) :
    avg f ≤ c := by
  rw [avg_prod]
  exact Reaction.avg_le h
end

theorem C150_holds : C150_Statement := by
  intro G _ _ s g db hd hcom hC hgen ε hε S hS n rest pos M hM
  have hcols : 0 < db.info.numColumns := Nat.pos_of_ne_zero (fun h => by have := hS []; rw [h] at this; omega)
  have h0 : 0 ≤ ε := (avg_nonneg (fun τ => indicator_nonneg _)).trans (hε _ (hgen 0 hcols) 0)
  have ht : ∀ k, k < db.info.numRows * db.info.numColumns →
      avg (fun x : Bytes s × Bytes s => indicator (uniform s x.1 • hashIndexToGroup g (k % db.info.numColumns) = 0)) ≤ ε :=
    fun k _ => avg_fst _ _ (fun _ => hε _ (hgen _ (Nat.mod_lt _ hcols)) 0)
  constructor
  · intro hf
    refine missed_le s g db S hS n rest pos M hM ε h0 (fun k hk => (avg_mono (fun x => indicator_mono ?_)).trans (ht k hk))
    intro hno
    by_contra hne
    exact hno (C39_fixed_size_partial g db _ _ k hd hf hcom hC hk hne)
  · intro hf hdig
    refine missed_le s g db S hS n rest pos M hM _ (by positivity) (fun k hk => ?_)
    have hy := Nat.mod_lt k hcols
    have hq : ∀ j, j < db.info.numColumns → avg (fun x : Bytes s × Bytes s => indicator
        (queryElement (hashIndexToGroup g) (uniform s x.2) (uniform s x.1) (k % db.info.numColumns) j = 0)) ≤ ε := by
      intro j hj
      refine avg_snd _ _ (fun a => (avg_mono (fun b => indicator_mono ?_)).trans (hε _ (hgen j hj)
        (-(if j = k % db.info.numColumns then uniform s a • hashIndexToGroup g (k % db.info.numColumns) else 0))))
      intro h
      exact eq_neg_of_add_eq_zero_left h
    have hr : ∀ i, i < db.info.numRows → avg (fun x : Bytes s × Bytes s => indicator
        (rowSum db (queryElement (hashIndexToGroup g) (uniform s x.2) (uniform s x.1) (k % db.info.numColumns)) i = 0)) ≤ ε := by
      intro i hi
      refine avg_snd _ _ (fun a => (avg_mono (fun b => indicator_mono ?_)).trans (hε _ (hdig i hi)
        (-(if Bit db i (k % db.info.numColumns) then uniform s a • hashIndexToGroup g (k % db.info.numColumns) else 0))))
      intro h
      rw [rowSum_query db _ _ _ hy] at h
      exact eq_neg_of_add_eq_zero_left h
    have key : ∀ x : Bytes s × Bytes s, indicator (¬ ∃ q st a,
        queryBytes g db.info (uniform s x.2) (uniform s x.1) k = ok (q, st) ∧ answerBytes g db q = ok a ∧
          reconstructBytes g db.info st a = ok (if db.entries.getD k 0 = 1 then 1 else 0)) ≤
        indicator (uniform s x.1 • hashIndexToGroup g (k % db.info.numColumns) = 0) +
        (∑ j ∈ range db.info.numColumns, indicator
          (queryElement (hashIndexToGroup g) (uniform s x.2) (uniform s x.1) (k % db.info.numColumns) j = 0) +
        ∑ i ∈ range db.info.numRows, indicator
          (rowSum db (queryElement (hashIndexToGroup g) (uniform s x.2) (uniform s x.1) (k % db.info.numColumns)) i = 0)) := by
      intro x
      refine le_trans (indicator_mono ?_) ((indicator_or _ _).trans (add_le_add_right ((indicator_or _ _).trans
        (add_le_add (indicator_exists _ _) (indicator_exists _ _))) _))
      intro hno
      by_contra hall
      push Not at hall
      obtain ⟨a1, a2, a3⟩ := hall
      exact hno (C39_retrieve_partial g db _ _ k hd (by have := hf.1; omega) hcom hC hk a1
        (fun j hj => hf.2.2 _ (a2 j (mem_range.2 hj))) (fun i hi => hf.2.2 _ (hdig i hi))
        (fun i hi => hf.2.2 _ (a3 i (mem_range.2 hi))))
    refine (avg_mono key).trans ?_
    rw [← Reaction.avg_add, ← Reaction.avg_add, Reaction.avg_sum, Reaction.avg_sum]
    have b1 := Finset.sum_le_sum (fun j hj => hq j (mem_range.1 hj))
    have b2 := Finset.sum_le_sum (fun i hi => hr i (mem_range.1 hi))
    rw [Finset.sum_const, card_range, nsmul_eq_mul] at b1 b2
    linarith [ht k hk]

/-! ### A sampler -/

/-- A library that takes the bytes as a little-endian number and reduces it modulo the order of the group. -/
def wide (k : Nat) : Sampler := ⟨k, fun l => (ofLE l : Int)⟩

/-- C148, C149, C150: in a group of prime order `q` the number made of `k` bytes spreads all multiples, up to `1/q + 1/256^k`. -/
theorem C150_wide {G : Type} [AddCommGroup G] [Fintype G] (hp : (Fintype.card G).Prime) (k : Nat) :
    SpreadAll (wide k) G (1 / Fintype.card G + 1 / 256 ^ k) := by
  intro x hx y
  have ho : addOrderOf x = Fintype.card G := by
    rcases (Nat.dvd_prime hp).mp (addOrderOf_dvd_card (x := x)) with h | h
    · exact absurd (AddMonoid.addOrderOf_eq_one_iff.mp h) hx
    · exact h
  have h1 := avg_number k (fun n => indicator ((n : Int) • x = y))
  refine le_trans (le_of_eq h1) ?_
  have hq : (0 : ℚ) < Fintype.card G := by exact_mod_cast hp.pos
  have hN : (0 : ℚ) < 256 ^ k := by positivity
  have h3 : ∃ a, ∀ n : Nat, (n : Int) • x = y → n % Fintype.card G = a := by
    by_cases hy : ∃ m : Nat, (m : Int) • x = y
    · obtain ⟨m, hm⟩ := hy
      refine ⟨m % Fintype.card G, fun n hn => ?_⟩
      rw [← hm, natCast_zsmul, natCast_zsmul] at hn
      have := (nsmul_eq_nsmul_iff_modEq (x := x)).1 hn
      rwa [ho] at this
    · exact ⟨0, fun n hn => absurd ⟨n, hn⟩ hy⟩
  obtain ⟨a, ha⟩ := h3
  have h4 : ∑ n : Fin (256 ^ k), indicator (((n.1 : Nat) : Int) • x = y) ≤ ((256 ^ k / Fintype.card G + 1 : Nat) : ℚ) := by
    refine le_trans (Finset.sum_le_sum (g := fun n : Fin (256 ^ k) => if n.1 % Fintype.card G = a then (1 : ℚ) else 0) ?_) ?_
    · intro n _
      by_cases h : ((n.1 : Nat) : Int) • x = y
      · rw [if_pos (ha _ h)]
        exact indicator_le_one _
      · rw [indicator_false h]
        split <;> norm_num
    · rw [Finset.sum_boole]
      exact_mod_cast count_mod (256 ^ k) (Fintype.card G) a
  unfold avg
  rw [Fintype.card_fin]
  have h5 : ((256 ^ k / Fintype.card G : Nat) : ℚ) ≤ 256 ^ k / Fintype.card G := by
    refine Nat.cast_div_le.trans (le_of_eq ?_)
    push_cast
    rfl
  push_cast at h4 ⊢
  rw [div_le_iff₀ hN]
  refine h4.trans ?_
  rw [add_mul, one_div_mul_cancel hN.ne']
  refine add_le_add_left (h5.trans (le_of_eq ?_)) _
  ring

/-- The same for the column generators. -/
theorem C148_wide {G : Type} [AddCommGroup G] [DecidableEq G] [Fintype G] (g : Grp G) (cols : Nat) (hp : (Fintype.card G).Prime)
    (hg : ∀ y, y < cols → hashIndexToGroup g y ≠ 0) (k : Nat) :
    Dh.Spec.Spread g cols (uniform (wide k)) (1 / Fintype.card G + 1 / 256 ^ k) :=
  fun y hy x => C150_wide hp k _ (hg y hy) x

/-- The hypotheses can be met: ten lookups from a group of five elements and a database of two rows and two columns, with scalars made
of 40 bytes; the server repeats the last message. -/
example (rest : Nat → Byte) (pos : Nat) := C148_holds _ (wide 40) shortGroup twoRows shortGroup_decodes twoRows_committed (by decide)
  (by decide) (by decide) _ (C148_wide shortGroup 2 (by decide) shortGroup_generators 40)
  ⟨fun past => ⟨past.length % 4, 2, fun q => ((past.getLast?.map Prod.fst).getD (ok q))⟩,
    fun past => if past.getLast? = some (ok [2, 3, 2, 2], ok ()) then 1 else 0⟩ (by intro past; dsimp only; split <;> norm_num) 10
  rest pos 800 (by decide)

example (rest : Nat → Byte) (pos : Nat) := C149_holds _ (wide 40) shortGroup twoRows shortGroup_decodes (Or.inr shortGroup_short)
  twoRows_committed (by decide) _ (C148_wide shortGroup 2 (by decide) shortGroup_generators 40)
  ⟨fun past => ⟨past.length % 4, 2, fun _ => ok [2, 4, 2, 3]⟩, fun _ => 0⟩ (by
    intro past
    exact Nat.mod_lt _ (by decide)) 10 rest pos 800 (by decide)

example (rest : Nat → Byte) (pos : Nat) := (C150_holds _ (wide 40) shortGroup twoRows shortGroup_decodes twoRows_committed (by decide)
  shortGroup_generators _ (C150_wide (by decide) 40)
  ⟨fun past => ⟨past.length % 4, 2, fun _ => ok [2, 4, 2, 3]⟩, fun _ => 0⟩ (by
    intro past
    exact Nat.mod_lt _ (by decide)) 10 rest pos 800 (by decide)).2 shortGroup_short (by decide)

/-- With a group of about 2^256 elements and scalars made of 48 bytes, a million lookups in a database of 2^32 bits fail with a chance
below `2^-217`. -/
example (q : ℚ) (hq : 2 ^ 255 ≤ q) : (10 ^ 6 : Nat) * ((1 + (2 ^ 16 : Nat) + (2 ^ 16 : Nat)) * (1 / q + 1 / 256 ^ 48)) < (1 : ℚ) / 2 ^ 217 := by
  have h : 1 / q ≤ 1 / 2 ^ 255 := one_div_le_one_div_of_le (by norm_num) hq
  refine lt_of_le_of_lt (mul_le_mul_of_nonneg_left (mul_le_mul_of_nonneg_left (add_le_add_left h _) (by positivity)) (by positivity)) ?_
  norm_num

end Verif.DhStream
