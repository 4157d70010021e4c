import Verif.Lemmas.Reaction
import Mathlib.GroupTheory.OrderOfElement

/-! # C86, C87: a lying server of the group-based scheme -/

namespace Verif.Dh
open Res Finset Verif.Privacy Verif.Reaction Verif.Dh.Spec

variable {G : Type} [AddCommGroup G] [DecidableEq G]

/-- C86 for one execution: unless the server changes a row by exactly the secret element or its negative, the client ends
as one that compares the answer with the honest one, which the server knows beforehand. -/
theorem C86_known_beforehand (g : Grp G) (db : Elliptic) (hd : Decodes g) (hcom : Committed g db)
    (hfull : ∀ i, i < db.info.numRows → (g.enc (rowSum db (hashIndexToGroup g) i)).length = db.info.elementSize)
    (hC : 0 < db.info.numColumns) (hC64 : db.info.numColumns ≤ 2 ^ 64) (F : List Byte → Res (List Byte)) (k : Nat)
    (r t : Int)
    (hno : ¬ Hits g db F (shifted (fun j : Fin db.info.numColumns => r • hashIndexToGroup g j) (k % db.info.numColumns)
      (t • hashIndexToGroup g (k % db.info.numColumns))) (t • hashIndexToGroup g (k % db.info.numColumns))) :
    ∃ v, view g db.info F k r t = (ok (elementMessage g.enc v), expected g db F v) :=
  ⟨_, reaction_eq g db hd hcom hfull hC hC64 F k r t _ rfl hno⟩

omit [DecidableEq G] in
/-- The server finds the secret element with a probability of at most the advantage of a test for the Diffie-Hellman
problem, plus the chance of guessing it. -/
theorem hits_bound {Ω T : Type} [Fintype Ω] [Fintype T] [Fintype G] (g : Grp G) (db : Elliptic)
    (F : List Byte → Res (List Byte)) (r : Ω → Int) (t : T → Int) (ε : ℚ)
    (hε : Spread g db.info.numColumns t ε) {y : Nat} (hy : y < db.info.numColumns) :
    avg (fun x : T × Ω => indicator (Hits g db F (shifted (fun j : Fin db.info.numColumns => r x.2 • hashIndexToGroup g j) y
      (t x.1 • hashIndexToGroup g y)) (t x.1 • hashIndexToGroup g y))) ≤
    dhGap g db r (hitTest g db F t y) + 2 * db.info.numRows * ε := by
  have h := hop (fun ω => fun j : Fin db.info.numColumns => r ω • hashIndexToGroup g j) y
    (fun τ => t τ • hashIndexToGroup g y) (fun v z => indicator (Hits g db F v z))
  have h' := le_of_abs_sub (le_of_eq h)
  have hu := hits_uniform g db F t ε hε hy
  have e : advantage (fun ω => fun j : Fin db.info.numColumns => r ω • hashIndexToGroup g j) id
      (fun u => avg (fun τ => indicator (Hits g db F (shifted u y (t τ • hashIndexToGroup g y)) (t τ • hashIndexToGroup g y)))) =
      dhGap g db r (hitTest g db F t y) := rfl
  rw [e] at h'
  linarith

/-- C86: whatever the server answers, it cannot tell two indices apart by its message and the way the client ends, except by
solving one of four explicit instances of the Diffie-Hellman problem or by guessing an element. The scalars `r` and `t` are
independent; `r` has any distribution. -/
theorem C86_reaction_hides {Ω T : Type} [Fintype Ω] [Fintype T] [Fintype G] (g : Grp G) (db : Elliptic) (hd : Decodes g)
    (hcom : Committed g db)
    (hfull : ∀ i, i < db.info.numRows → (g.enc (rowSum db (hashIndexToGroup g) i)).length = db.info.elementSize)
    (hC : 0 < db.info.numColumns) (hC64 : db.info.numColumns ≤ 2 ^ 64) (F : List Byte → Res (List Byte))
    (r : Ω → Int) (t : T → Int) (ε : ℚ) (hε : Spread g db.info.numColumns t ε) (k k' : Nat)
    (D : Res (List Byte) × Res Unit → ℚ) (hD : IsTest D) :
    advantage (fun x : T × Ω => view g db.info F k (r x.2) (t x.1))
        (fun x : T × Ω => view g db.info F k' (r x.2) (t x.1)) D ≤
      dhGap g db r (seeTest g db F t (k % db.info.numColumns) D) +
      dhGap g db r (seeTest g db F t (k' % db.info.numColumns) D) +
      dhGap g db r (hitTest g db F t (k % db.info.numColumns)) +
      dhGap g db r (hitTest g db F t (k' % db.info.numColumns)) + 4 * db.info.numRows * ε := by
  have one : ∀ m : Nat, |avg (fun x : T × Ω => D (view g db.info F m (r x.2) (t x.1))) -
      avg (fun x : T × (Fin db.info.numColumns → G) => D (ok (elementMessage g.enc x.2), expected g db F x.2))| ≤
      dhGap g db r (seeTest g db F t (m % db.info.numColumns) D) +
      dhGap g db r (hitTest g db F t (m % db.info.numColumns)) + 2 * db.info.numRows * ε := by
    intro m
    have hy := Nat.mod_lt m hC
    generalize hym : m % db.info.numColumns = y at *
    have h1 := avg_switch (f := fun x : T × Ω => D (view g db.info F m (r x.2) (t x.1)))
      (f' := fun x : T × Ω => D (ok (elementMessage g.enc (shifted (fun j : Fin db.info.numColumns =>
          r x.2 • hashIndexToGroup g j) y (t x.1 • hashIndexToGroup g y))),
        expected g db F (shifted (fun j : Fin db.info.numColumns =>
          r x.2 • hashIndexToGroup g j) y (t x.1 • hashIndexToGroup g y))))
      (E := fun x : T × Ω => Hits g db F (shifted (fun j : Fin db.info.numColumns => r x.2 • hashIndexToGroup g j) y
        (t x.1 • hashIndexToGroup g y)) (t x.1 • hashIndexToGroup g y)) (fun x => hD _) (fun x => hD _) (by
        intro x hx
        rw [reaction_eq g db hd hcom hfull hC hC64 F m (r x.2) (t x.1) _ (by rw [hym]) (by rw [hym]; exact hx)])
    have h2 := hits_bound g db F r t ε hε hy
    have h3 := hop (fun ω => fun j : Fin db.info.numColumns => r ω • hashIndexToGroup g j) y
      (fun τ => t τ • hashIndexToGroup g y) (fun v _ => D (ok (elementMessage g.enc v), expected g db F v))
    have e : advantage (fun ω => fun j : Fin db.info.numColumns => r ω • hashIndexToGroup g j) id
      (fun u => avg (fun τ => D (ok (elementMessage g.enc (shifted u y (t τ • hashIndexToGroup g y))),
        expected g db F (shifted u y (t τ • hashIndexToGroup g y))))) =
      dhGap g db r (seeTest g db F t y D) := rfl
    rw [e] at h3
    refine le_trans (close_trans h1 (le_of_eq h3)) ?_
    linarith
  unfold advantage
  refine le_trans (abs_sub_le _ (avg (fun x : T × (Fin db.info.numColumns → G) =>
    D (ok (elementMessage g.enc x.2), expected g db F x.2))) _) ?_
  have h := one k
  have h' := one k'
  rw [abs_sub_comm] at h'
  linarith

omit [DecidableEq G] in
/-- C86, C87: in a group of prime order a multiple of a column generator by a uniform scalar is uniform, if the generator is
not neutral. -/
theorem C86_spread [Fintype G] (g : Grp G) (cols : Nat) (hp : (Fintype.card G).Prime)
    (hg : ∀ y, y < cols → hashIndexToGroup g y ≠ 0) :
    Spread g cols (fun τ : Fin (Fintype.card G) => (τ.val : Int)) (1 / Fintype.card G) := by
  intro y hy x
  have ho : addOrderOf (hashIndexToGroup g y) = Fintype.card G := by
    rcases (Nat.dvd_prime hp).mp (addOrderOf_dvd_card (x := hashIndexToGroup g y)) with h | h
    · exact absurd (AddMonoid.addOrderOf_eq_one_iff.mp h) (hg y hy)
    · exact h
  unfold avg
  rw [Fintype.card_fin]
  apply div_le_div_of_nonneg_right _ (Nat.cast_nonneg _)
  by_cases hx : ∃ τ : Fin (Fintype.card G), ((τ.val : Int)) • hashIndexToGroup g y = x
  · obtain ⟨τ, hτ⟩ := hx
    rw [Finset.sum_eq_single τ]
    · exact indicator_le_one _
    · intro τ' _ hne
      apply indicator_false
      intro h
      apply hne
      rw [← hτ, natCast_zsmul, natCast_zsmul] at h
      have hinj := nsmul_injOn_Iio_addOrderOf (x := hashIndexToGroup g y) (by
        rw [ho]; exact τ'.isLt) (by rw [ho]; exact τ.isLt) h
      exact Fin.ext hinj
    · intro h
      exact absurd (Finset.mem_univ _) h
  · rw [Finset.sum_eq_zero]
    · norm_num
    · intro τ _
      exact indicator_false (fun h => hx ⟨τ, h⟩)

/-- C87: whatever the server answers, the client takes a wrong bit only if the server solves an explicit instance of the
Diffie-Hellman problem or guesses an element. -/
theorem C87_wrong_bit {Ω T : Type} [Fintype Ω] [Fintype T] [Fintype G] (g : Grp G) (db : Elliptic) (hd : Decodes g)
    (hsz : FixedSize g db.info.elementSize ∨ ShortIdentity g db.info.elementSize) (hcom : Committed g db)
    (hC : db.info.numColumns ≤ 2 ^ 63) (F : List Byte → Res (List Byte))
    (r : Ω → Int) (t : T → Int) (ε : ℚ) (hε : Spread g db.info.numColumns t ε) (k : Nat)
    (hk : k < db.info.numRows * db.info.numColumns) :
    avg (fun x : T × Ω => indicator (∃ b, retrieved g db.info F k (r x.2) (t x.1) = ok b ∧
      b ≠ if db.entries.getD k 0 = 1 then 1 else 0)) ≤
      dhGap g db r (hitTest g db F t (k % db.info.numColumns)) + (2 * db.info.numRows + 1) * ε := by
  have hCpos : 0 < db.info.numColumns := by
    rcases Nat.eq_zero_or_pos db.info.numColumns with h | h
    · rw [h] at hk; simp at hk
    · exact h
  have hy := Nat.mod_lt k hCpos
  have hb := hits_bound g db F r t ε hε hy
  have hz : avg (fun x : T × Ω => indicator (t x.1 • hashIndexToGroup g (k % db.info.numColumns) = 0)) ≤ ε := by
    rw [avg_prod]
    by_cases hΩ : Nonempty Ω
    · exact avg_le (fun ω => hε _ hy 0)
    · have : IsEmpty Ω := not_nonempty_iff.mp hΩ
      unfold avg
      simp only [univ_eq_empty, sum_empty, zero_div]
      exact le_trans (avg_nonneg (fun τ => indicator_nonneg _)) (hε _ hy 0)
  have key : ∀ x : T × Ω, indicator (∃ b, retrieved g db.info F k (r x.2) (t x.1) = ok b ∧
      b ≠ if db.entries.getD k 0 = 1 then 1 else 0) ≤
      indicator (Hits g db F (shifted (fun j : Fin db.info.numColumns => r x.2 • hashIndexToGroup g j)
        (k % db.info.numColumns) (t x.1 • hashIndexToGroup g (k % db.info.numColumns)))
        (t x.1 • hashIndexToGroup g (k % db.info.numColumns))) +
      indicator (t x.1 • hashIndexToGroup g (k % db.info.numColumns) = 0) := by
    intro x
    refine le_trans (indicator_mono ?_) (indicator_or _ _)
    rintro ⟨b, hr, hne⟩
    by_cases h0 : t x.1 • hashIndexToGroup g (k % db.info.numColumns) = 0
    · exact Or.inr h0
    left
    unfold retrieved at hr
    obtain ⟨⟨q, st⟩, hq, hr⟩ := bind_eq_ok.mp hr
    obtain ⟨a, ha, hr⟩ := bind_eq_ok.mp hr
    obtain ⟨ans, hun, hl, -, -, hw⟩ := C40_wrong_bit_needs_blinding g db _ _ k hd hsz hcom hC hk q a st b hq hr
    obtain ⟨hx, hδ⟩ := hw hne
    have hs := sentBytes_eq g db.info (r x.2) (t x.1) k hCpos (by omega)
    unfold sentBytes at hs
    rw [hq, ok_bind, ok.injEq] at hs
    dsimp only at hs
    rw [hs] at ha
    refine ⟨a, ans, ha, hun, k / db.info.numColumns, _, rowSum db (queryElement (hashIndexToGroup g) (r x.2) (t x.1)
      (k % db.info.numColumns)) (k / db.info.numColumns), List.getElem?_eq_getElem (by omega), ?_, ?_, ?_⟩
    · unfold honestRows
      rw [List.getElem?_map, List.getElem?_range hx, Option.map_some, rowSum_query db _ _ _ hy, honest_query db _ _ _ hy]
    · intro h
      rw [sub_eq_zero.mpr h] at hδ
      split at hδ
      · exact h0 hδ.symm
      · exact h0 (neg_eq_zero.mp hδ.symm)
    · split at hδ
      · left; rw [← hδ]; abel
      · right; rw [sub_eq_iff_eq_add] at hδ; rw [hδ]; abel
  refine le_trans (avg_mono key) ?_
  rw [← avg_add]
  linarith

/-! ### The hypotheses are met -/

theorem shortGroup_generators : ∀ y, y < 2 → hashIndexToGroup shortGroup y ≠ 0 := by decide

/-- A group of five elements and a database of two rows and two columns. -/
example (F : List Byte → Res (List Byte)) (D : Res (List Byte) × Res Unit → ℚ) (hD : IsTest D) :=
  C86_reaction_hides (Ω := Fin 5) shortGroup twoRows shortGroup_decodes twoRows_committed (by decide) (by decide) (by decide) F
    (fun r => r.val) _ _ (C86_spread shortGroup 2 (by decide) shortGroup_generators) 1 2 D hD

example (F : List Byte → Res (List Byte)) :=
  C87_wrong_bit (Ω := Fin 5) shortGroup twoRows shortGroup_decodes (Or.inr shortGroup_short) twoRows_committed (by decide) F
    (fun r => r.val) _ _ (C86_spread shortGroup 2 (by decide) shortGroup_generators) 1 (by decide)

/-- A server that adds the element 2 to the first row gets a wrong bit through with one secret and is caught with another. -/
example : view shortGroup twoRows.info (fun _ => ok [2, 4, 2, 3]) 0 1 2 = (ok [2, 3, 2, 2], ok ()) ∧
    retrieved shortGroup twoRows.info (fun _ => ok [2, 4, 2, 3]) 0 1 2 = ok 1 ∧
    (view shortGroup twoRows.info (fun _ => ok [2, 4, 2, 3]) 0 1 3).2 = err "reject" := by
  decide

end Verif.Dh
