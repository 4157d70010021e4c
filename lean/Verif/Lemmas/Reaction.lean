import Verif.Spec.Reaction
import Verif.Lemmas.Privacy
import Verif.Lemmas.Loop
import Verif.Props.Privacy
import Mathlib.Algebra.BigOperators.Fin

/-! # Lemmas about the client's reaction -/

namespace Verif.Reaction
open Res Finset Verif.Privacy

variable {Ω Ω' T V : Type} [Fintype Ω] [Fintype Ω'] [Fintype T]

theorem ending_bind {α β : Type} (x : Res α) (f : α → Res β) : ending (x >>= f) = (x >>= fun a => ending (f a)) := by
  cases x <;> rfl

theorem indicator_true {p : Prop} (h : p) : indicator p = 1 := by
  unfold indicator; exact if_pos h

theorem indicator_false {p : Prop} (h : ¬ p) : indicator p = 0 := by
  unfold indicator; exact if_neg h

theorem indicator_nonneg (p : Prop) : 0 ≤ indicator p := by
  by_cases h : p
  · rw [indicator_true h]; norm_num
  · rw [indicator_false h]

theorem indicator_le_one (p : Prop) : indicator p ≤ 1 := by
  by_cases h : p
  · rw [indicator_true h]
  · rw [indicator_false h]; norm_num

theorem indicator_mono {p q : Prop} (h : p → q) : indicator p ≤ indicator q := by
  by_cases hp : p
  · rw [indicator_true hp, indicator_true (h hp)]
  · rw [indicator_false hp]; exact indicator_nonneg q

theorem indicator_or (p q : Prop) : indicator (p ∨ q) ≤ indicator p + indicator q := by
  by_cases hp : p
  · rw [indicator_true hp, indicator_true (Or.inl hp)]; linarith [indicator_nonneg q]
  · rw [indicator_false hp, zero_add]
    exact indicator_mono (fun h => h.resolve_left hp)

/-- The union bound. -/
theorem indicator_exists {ι : Type} (s : Finset ι) (p : ι → Prop) :
    indicator (∃ i ∈ s, p i) ≤ ∑ i ∈ s, indicator (p i) := by
  by_cases h : ∃ i ∈ s, p i
  · obtain ⟨i, hi, hp⟩ := h
    rw [indicator_true ⟨i, hi, hp⟩, ← indicator_true hp]
    exact Finset.single_le_sum (f := fun i => indicator (p i)) (fun j _ => indicator_nonneg _) hi
  · rw [indicator_false h]
    exact Finset.sum_nonneg (fun j _ => indicator_nonneg _)

theorem avg_add (f g : Ω → ℚ) : avg f + avg g = avg (fun x => f x + g x) := by
  unfold avg
  rw [Finset.sum_add_distrib, add_div]

theorem avg_sum {ι : Type} (s : Finset ι) (f : ι → Ω → ℚ) : avg (fun x => ∑ i ∈ s, f i x) = ∑ i ∈ s, avg (f i) := by
  unfold avg
  rw [Finset.sum_comm, Finset.sum_div]

theorem avg_le [Nonempty Ω] {f : Ω → ℚ} {c : ℚ} (h : ∀ x, f x ≤ c) : avg f ≤ c := by
  have := avg_mono (f := f) (g := fun _ : Ω => c) h
  rwa [avg_const] at this

theorem le_of_abs_sub {a b c : ℚ} (h : |a - b| ≤ c) : a ≤ b + c := by
  linarith [(abs_le.1 h).2]

theorem close_trans {a b c x y : ℚ} (h : |a - b| ≤ x) (h' : |b - c| ≤ y) : |a - c| ≤ x + y :=
  le_trans (abs_sub_le a b c) (add_le_add h h')

/-- Two tests that differ only in an event differ by at most its probability. -/
theorem avg_switch {f f' : Ω → ℚ} {E : Ω → Prop} (hf : ∀ x, 0 ≤ f x ∧ f x ≤ 1) (hf' : ∀ x, 0 ≤ f' x ∧ f' x ≤ 1)
    (h : ∀ x, ¬ E x → f x = f' x) : |avg f - avg f'| ≤ avg (fun x => indicator (E x)) := by
  rw [avg_sub, abs_le]
  constructor
  · have : 0 ≤ avg (fun x => (f x - f' x) + indicator (E x)) := by
      apply avg_nonneg
      intro x
      by_cases hE : E x
      · rw [indicator_true hE]; linarith [(hf x).1, (hf' x).2]
      · rw [indicator_false hE, h x hE]; linarith
    rw [← avg_add] at this
    linarith
  · apply avg_mono
    intro x
    by_cases hE : E x
    · rw [indicator_true hE]; linarith [(hf x).2, (hf' x).1]
    · rw [indicator_false hE, h x hE]; linarith

/-- Replacing a structured vector with a uniform one when a random value is added at one position. -/
theorem hop {l : Nat} [AddCommGroup V] [Fintype V] (v : Ω → Fin l → V) (y : Nat) (z : T → V)
    (f : (Fin l → V) → V → ℚ) :
    |avg (fun x : T × Ω => f (shifted (v x.2) y (z x.1)) (z x.1)) - avg (fun x : T × (Fin l → V) => f x.2 (z x.1))| =
      advantage v id (fun u => avg (fun τ => f (shifted u y (z τ)) (z τ))) := by
  unfold advantage
  congr 1
  congr 1
  · rw [avg_prod]
  · rw [avg_prod']
    have : avg (fun u : Fin l → V => avg (fun τ => f (shifted (id u) y (z τ)) (z τ))) =
        avg (fun τ => avg (fun u : Fin l → V => f (shifted u y (z τ)) (z τ))) := by
      exact (avg_prod (fun x : T × (Fin l → V) => f (shifted x.2 y (z x.1)) (z x.1))).symm.trans (avg_prod' _)
    rw [this]
    apply avg_congr
    intro τ
    exact (avg_equiv (shiftEquiv y (z τ)) (fun u => f u (z τ))).symm

end Verif.Reaction

namespace Verif.Dh
open Res Finset Verif.Privacy Verif.Reaction Verif.Dh.Spec

variable {G : Type} [AddCommGroup G] [DecidableEq G]

omit [AddCommGroup G] in
/-- The client's loop, without its result, when each row is fine exactly if it is as wanted. -/
theorem loop_compare (want ans : List G) (good : Nat → G → Prop) [∀ i x, Decidable (good i x)]
    (upd : Nat → G → Byte → Byte)
    (h : ∀ i x w, ans[i]? = some x → want[i]? = some w → (good i x ↔ x = w)) (res : Byte) :
    ending (forLoop want.length (fun i res => do
      let ai ← idx ans i
      if ¬ good i ai then err "reject" else ok (upd i ai res)) res) = compare want ans := by
  induction want generalizing ans good upd res with
  | nil => rfl
  | cons w ws ih =>
    rw [List.length_cons, forLoop_succ']
    cases ans with
    | nil => rfl
    | cons a as =>
      have h0 := h 0 a w rfl rfl
      have e : idx (a :: as) 0 = ok a := rfl
      rw [e, ok_bind]
      unfold Spec.compare
      by_cases ha : a = w
      · rw [if_neg (not_not.mpr (h0.mpr ha)), if_pos ha, ok_bind]
        exact ih as (fun i x => good (i + 1) x) (fun i x r => upd (i + 1) x r)
          (fun i x w hx hw => h (i + 1) x w hx hw) _
      · rw [if_pos (fun hg => ha (h0.mp hg)), if_neg ha]
        rfl

omit [DecidableEq G] in
theorem honestRows_get {db : Elliptic} {v : Fin db.info.numColumns → G} {i : Nat} {w : G}
    (h : (honestRows db v)[i]? = some w) :
    i < db.info.numRows ∧ w = ∑ j : Fin db.info.numColumns, if Bit db i j then v j else 0 := by
  unfold honestRows at h
  rw [List.getElem?_map] at h
  obtain ⟨k, hk, rfl⟩ := Option.map_eq_some_iff.mp h
  obtain ⟨h1, h2⟩ := List.getElem?_eq_some_iff.mp hk
  rw [List.getElem_range] at h2
  subst h2
  exact ⟨by simpa using h1, rfl⟩

omit [DecidableEq G] in
/-- The honest answer to the client's query. -/
theorem honest_query (db : Elliptic) (h : Nat → G) (r t : Int) {y : Nat} (hy : y < db.info.numColumns) (i : Nat) :
    (∑ j : Fin db.info.numColumns, if Bit db i j then
      shifted (fun j : Fin db.info.numColumns => r • h j) y (t • h y) j else 0) =
    r • rowSum db h i + if Bit db i y then t • h y else 0 := by
  rw [← rowSum_query db h r t hy i]
  unfold rowSum
  rw [Finset.sum_range]
  rfl

/-- The client ends as if it compared the answer with the honest one, unless the server has found the secret element. -/
theorem reaction_eq (g : Grp G) (db : Elliptic) (hd : Decodes g) (hcom : Committed g db)
    (hfull : ∀ i, i < db.info.numRows → (g.enc (rowSum db (hashIndexToGroup g) i)).length = db.info.elementSize)
    (hC : 0 < db.info.numColumns) (hC64 : db.info.numColumns ≤ 2 ^ 64) (F : List Byte → Res (List Byte)) (k : Nat)
    (r t : Int) (v : Fin db.info.numColumns → G)
    (hv : v = shifted (fun j : Fin db.info.numColumns => r • hashIndexToGroup g j) (k % db.info.numColumns)
      (t • hashIndexToGroup g (k % db.info.numColumns)))
    (hno : ¬ Hits g db F v (t • hashIndexToGroup g (k % db.info.numColumns))) :
    view g db.info F k r t = (ok (elementMessage g.enc v), expected g db F v) := by
  have hy := Nat.mod_lt k hC
  have hs := sentBytes_eq g db.info r t k hC hC64
  unfold sentBytes at hs
  rw [query_eq g db.info r t k hC hC64, ok_bind] at hs
  dsimp only at hs
  unfold view
  rw [query_eq g db.info r t k hC hC64]
  dsimp only
  rw [ok.injEq] at hs
  rw [hs, ← hv]
  congr 1
  unfold expected
  rw [ending_bind]
  cases hF : F (elementMessage g.enc v) with
  | err m => rfl
  | crash m => rfl
  | ok a =>
    rw [ok_bind, ok_bind]
    cases hun : unmarshalGroupElements g a db.info.elementSize with
    | err m => unfold reconstructBytes; rw [hun]; rfl
    | crash m => unfold reconstructBytes; rw [hun]; rfl
    | ok ans =>
      rw [ok_bind, reconstruct_eq g db hcom hd hfull _ _ _ hun]
      have hlen : (honestRows db v).length = db.info.numRows := by simp [honestRows]
      have := loop_compare (honestRows db v) ans
        (fun i x => ¬ ((-r) • rowSum db (hashIndexToGroup g) i + x ≠ 0 ∧ (-r) • rowSum db (hashIndexToGroup g) i + x ≠
          t • hashIndexToGroup g (k % db.info.numColumns)))
        (fun i x res => if (i : Int) = ((k / db.info.numColumns : Nat) : Int) then
          (if (-r) • rowSum db (hashIndexToGroup g) i + x = 0 then 0 else 1) else res) (by
          intro i x w hx hw
          obtain ⟨-, hw'⟩ := honestRows_get hw
          rw [hv, honest_query db _ r t hy] at hw'
          have hm : (-r) • rowSum db (hashIndexToGroup g) i + x = (x - w) + (if Bit db i (k % db.info.numColumns) then
              t • hashIndexToGroup g (k % db.info.numColumns) else 0) := by
            rw [hw', neg_smul]; abel
          rw [hm]
          constructor
          · intro h
            by_contra hne
            apply hno
            refine ⟨a, ans, hF, hun, i, x, w, hx, hw, hne, ?_⟩
            rw [not_and_or, not_not, not_not] at h
            by_cases hb : Bit db i (k % db.info.numColumns)
            · rw [if_pos hb] at h
              rcases h with h | h
              · right
                have := eq_neg_of_add_eq_zero_left h
                rw [sub_eq_iff_eq_add] at this
                rw [this]; abel
              · exact absurd (sub_eq_zero.mp (by simpa using h)) hne
            · rw [if_neg hb, add_zero] at h
              rcases h with h | h
              · exact absurd (sub_eq_zero.mp h) hne
              · left
                rw [sub_eq_iff_eq_add] at h
                rw [h]; abel
          · intro h
            subst h
            rw [sub_self, zero_add]
            split <;> simp) 0
      rw [hlen] at this
      rw [← this]
      congr 1
      apply forLoop_congr
      intro i res hi
      cases idx ans i with
      | err m => rfl
      | crash m => rfl
      | ok x =>
        rw [ok_bind, ok_bind]
        dsimp only
        by_cases hc : (-r) • rowSum db (hashIndexToGroup g) i + x ≠ 0 ∧
            (-r) • rowSum db (hashIndexToGroup g) i + x ≠ t • hashIndexToGroup g (k % db.info.numColumns)
        · rw [if_pos hc, if_pos (not_not.mpr hc)]
        · rw [if_neg hc, if_neg (not_not.not.mpr hc)]
          split <;> rfl

omit [DecidableEq G] in
/-- The probability of finding the element added to a uniform vector. -/
theorem hits_uniform {T : Type} [Fintype T] [Fintype G] (g : Grp G) (db : Elliptic) (F : List Byte → Res (List Byte))
    (t : T → Int) (ε : ℚ) (hε : Spread g db.info.numColumns t ε) {y : Nat} (hy : y < db.info.numColumns) :
    avg (fun x : T × (Fin db.info.numColumns → G) => indicator (Hits g db F x.2 (t x.1 • hashIndexToGroup g y))) ≤
      2 * db.info.numRows * ε := by
  rw [avg_prod]
  apply avg_le
  intro v
  have hε0 : 0 ≤ ε := le_trans (avg_nonneg (fun τ => indicator_nonneg _)) (hε y hy 0)
  by_cases hF : ∃ a ans, F (elementMessage g.enc v) = ok a ∧ unmarshalGroupElements g a db.info.elementSize = ok ans
  · obtain ⟨a, ans, ha, hun⟩ := hF
    have key : ∀ τ : T, indicator (Hits g db F v (t τ • hashIndexToGroup g y)) ≤
        ∑ i ∈ range db.info.numRows, (indicator (t τ • hashIndexToGroup g y = ans.getD i 0 - (honestRows db v).getD i 0) +
          indicator (t τ • hashIndexToGroup g y = (honestRows db v).getD i 0 - ans.getD i 0)) := by
      intro τ
      refine le_trans (le_trans (indicator_mono ?_) (indicator_exists (range db.info.numRows)
        (fun i => t τ • hashIndexToGroup g y = ans.getD i 0 - (honestRows db v).getD i 0 ∨
          t τ • hashIndexToGroup g y = (honestRows db v).getD i 0 - ans.getD i 0)))
        (Finset.sum_le_sum fun i _ => indicator_or _ _)
      rintro ⟨a', ans', ha', hun', i, x, w, hx, hw, -, h⟩
      rw [ha, ok.injEq] at ha'
      subst ha'
      rw [hun, ok.injEq] at hun'
      subst hun'
      refine ⟨i, by simpa using (honestRows_get hw).1, ?_⟩
      simp only [List.getD_eq_getElem?_getD, hx, hw, Option.getD_some]
      rcases h with h | h
      · left; rw [h]; abel
      · right; rw [h]; abel
    refine le_trans (avg_mono key) ?_
    rw [avg_sum]
    refine le_trans (Finset.sum_le_card_nsmul _ _ (ε + ε) ?_) ?_
    · intro i _
      rw [← avg_add]
      exact add_le_add (hε y hy _) (hε y hy _)
    · rw [card_range, nsmul_eq_mul]
      linarith
  · rw [show (fun τ : T => indicator (Hits g db F v (t τ • hashIndexToGroup g y))) = fun _ => (0 : ℚ) from by
      funext τ
      exact indicator_false (fun ⟨a, ans, h1, h2, _⟩ => hF ⟨a, ans, h1, h2⟩)]
    unfold avg
    simp only [sum_const_zero, zero_div]
    positivity

end Verif.Dh
