import Verif.Spec.Pgp
import Verif.Lemmas.Layout
import Verif.Lemmas.Loop
import Verif.Props.MerklePir
import Mathlib.Data.List.Lex

/-! # Lemmas about the key database -/

set_option linter.unusedSimpArgs false
namespace Verif.Pgp
open Res Verif.Pgp.Spec Verif.Database Verif.Padding Verif.Layout

theorem strLt_iff (a b : Str) : strLt a b = true ↔ Less a b := by
  unfold strLt Less
  rw [decide_eq_true_iff]

theorem map_toNat_inj {a b : Str} (h : a.map BitVec.toNat = b.map BitVec.toNat) : a = b :=
  (List.map_injective_iff.mpr (fun _ _ h => BitVec.eq_of_toNat_eq h)) h

theorem less_irrefl (a : Str) : ¬ Less a a := lt_irrefl (a.map BitVec.toNat)

theorem less_trans {a b c : Str} (h1 : Less a b) (h2 : Less b c) : Less a c := by
  unfold Less at *
  exact lt_trans h1 h2

theorem less_connected {a b : Str} (h1 : ¬ Less a b) (h2 : ¬ Less b a) : a = b := by
  unfold Less at *
  exact map_toNat_inj (le_antisymm (not_lt.mp h2) (not_lt.mp h1))

/-! ### Maps -/

section Map
variable {α β : Type _} [DecidableEq α]

theorem mget_nil (k : α) : mget ([] : List (α × β)) k = none := rfl

theorem mget_mset (m : List (α × β)) (k k' : α) (v : β) :
    mget (mset m k v) k' = if k' = k then some v else mget m k' := by
  unfold mget mset
  by_cases h : k' = k
  · subst h
    simp
  · rw [if_neg h, List.find?_cons_of_neg (by simpa using Ne.symm h)]
    congr 1
    rw [List.find?_filter]
    congr 1
    funext e
    by_cases he : e.1 = k'
    · simp [he, h]
    · simp [he]

/-- Distinct keys. -/
def Distinct (m : List (α × β)) : Prop := (m.map (·.1)).Nodup

theorem distinct_mset {m : List (α × β)} (h : Distinct m) (k : α) (v : β) : Distinct (mset m k v) := by
  unfold Distinct mset
  rw [List.map_cons, List.nodup_cons]
  constructor
  · simp
  · exact h.sublist (List.filter_sublist.map _)

theorem mget_eq_some {m : List (α × β)} (h : Distinct m) (k : α) (v : β) : mget m k = some v ↔ (k, v) ∈ m := by
  induction m with
  | nil => simp [mget]
  | cons x m ih =>
    have hd : Distinct m := (List.nodup_cons.mp h).2
    have hn : x.1 ∉ m.map (·.1) := (List.nodup_cons.mp h).1
    obtain ⟨a, b⟩ := x
    by_cases hk : a = k
    · subst hk
      have h1 : mget ((a, b) :: m) a = some b := by simp [mget]
      rw [h1]
      constructor
      · intro h; simp only [Option.some.injEq] at h; subst h; simp
      · intro h
        rcases List.mem_cons.mp h with h | h
        · simp only [Prod.mk.injEq] at h; rw [h.2]
        · exact absurd (List.mem_map_of_mem (f := (·.1)) h) hn
    · have h1 : mget ((a, b) :: m) k = mget m k := by
        unfold mget
        rw [List.find?_cons_of_neg (by simpa using hk)]
      rw [h1, ih hd]
      constructor
      · intro h; exact List.mem_cons_of_mem _ h
      · intro h
        rcases List.mem_cons.mp h with h | h
        · simp only [Prod.mk.injEq] at h; exact absurd h.1.symm hk
        · exact h

theorem mget_perm {m m' : List (α × β)} (h : Distinct m) (hp : m'.Perm m) (k : α) : mget m' k = mget m k := by
  have h' : Distinct m' := (List.Perm.nodup_iff (hp.map (fun e : α × β => e.1))).mpr h
  apply Option.ext
  intro v
  rw [mget_eq_some h, mget_eq_some h', hp.mem_iff]

end Map

/-! ### E-mails -/

theorem filed (lower : Str → Str) (e : Entity) : FiledUnder lower e (primaryEmail lower e) := by
  unfold FiledUnder primaryEmail
  by_cases h : e.primary = []
  · right
    simp only [h, if_true, true_and]
    have key : ∀ (l done : List Str) (acc : Str),
        ((acc = [] ∧ ∀ y ∈ done, y = []) ∨ (acc ∈ done ∧ acc ≠ [] ∧ ∀ y ∈ done, y ≠ [] → ¬ Less y acc)) →
        let r := l.foldl (fun email id => if id ≠ [] ∧ (email = [] ∨ strLt id email) then id else email) acc
        ((r = [] ∧ ∀ y ∈ done ++ l, y = []) ∨ (r ∈ done ++ l ∧ r ≠ [] ∧ ∀ y ∈ done ++ l, y ≠ [] → ¬ Less y r)) := by
      intro l
      induction l with
      | nil => intro done acc h; simpa using h
      | cons x l ih =>
        intro done acc hacc
        have := ih (done ++ [x]) (if x ≠ [] ∧ (acc = [] ∨ strLt x acc) then x else acc) ?_
        · simpa using this
        · by_cases hx : x = []
          · subst hx
            simp only [ne_eq, not_true_eq_false, false_and, if_false]
            rcases hacc with ⟨h1, h2⟩ | ⟨h1, h2, h3⟩
            · left
              exact ⟨h1, fun y hy => by
                rcases List.mem_append.mp hy with hy | hy
                · exact h2 y hy
                · simpa using hy⟩
            · right
              exact ⟨List.mem_append_left _ h1, h2, fun y hy hne => by
                rcases List.mem_append.mp hy with hy | hy
                · exact h3 y hy hne
                · exact absurd (by simpa using hy) hne⟩
          · rcases hacc with ⟨h1, h2⟩ | ⟨h1, h2, h3⟩
            · right
              rw [if_pos ⟨hx, Or.inl h1⟩]
              refine ⟨by simp, hx, fun y hy hne => ?_⟩
              rcases List.mem_append.mp hy with hy | hy
              · exact absurd (h2 y hy) hne
              · have : y = x := by simpa using hy
                subst this
                exact less_irrefl _
            · right
              by_cases hlt : strLt x acc = true
              · rw [if_pos ⟨hx, Or.inr hlt⟩]
                refine ⟨by simp, hx, fun y hy hne hl => ?_⟩
                rcases List.mem_append.mp hy with hy | hy
                · exact h3 y hy hne (less_trans hl ((strLt_iff _ _).mp hlt))
                · have : y = x := by simpa using hy
                  subst this
                  exact less_irrefl _ hl
              · rw [if_neg (by rintro ⟨-, h | h⟩; exacts [h2 h, hlt h])]
                refine ⟨List.mem_append_left _ h1, h2, fun y hy hne => ?_⟩
                rcases List.mem_append.mp hy with hy | hy
                · exact h3 y hy hne
                · have : y = x := by simpa using hy
                  subst this
                  exact fun hl => hlt ((strLt_iff _ _).mpr hl)
    have := key e.emails [] [] (Or.inl ⟨rfl, by simp⟩)
    simp only [List.nil_append] at this
    rcases this with ⟨h1, h2⟩ | ⟨h1, h2, h3⟩
    · right
      exact ⟨h2, by rw [h1]⟩
    · left
      exact ⟨_, h1, h2, h3, rfl⟩
  · left
    simp [h]

theorem filed_unique {lower : Str → Str} {e : Entity} {m m' : Str} (h : FiledUnder lower e m)
    (h' : FiledUnder lower e m') : m = m' := by
  rcases h with ⟨a, b⟩ | ⟨a, x, b1, b2, b3, b4⟩ | ⟨a, b, c⟩ <;>
    rcases h' with ⟨a', b'⟩ | ⟨a', x', b1', b2', b3', b4'⟩ | ⟨a', b', c'⟩
  · rw [b, b']
  · exact absurd a' a
  · exact absurd a' a
  · exact absurd a a'
  · rw [b4, b4', less_connected (b3' x b1 b2) (b3 x' b1' b2')]
  · exact absurd (b' x b1) b2
  · exact absurd a a'
  · exact absurd (b x' b1') b2'
  · rw [c, c']

theorem filed_iff (lower : Str → Str) (e : Entity) (m : Str) : FiledUnder lower e m ↔ primaryEmail lower e = m :=
  ⟨fun h => filed_unique (filed lower e) h, fun h => h ▸ filed lower e⟩

/-! ### Processing of a dump -/

/-- The state of the key map after processing `es`. -/
structure Inv (lower : Str → Str) (es : List Entity) (m : List (Str × Entity)) : Prop where
  distinct : Distinct m
  nonempty : mget m [] = none
  absent : ∀ email, email ≠ [] → mget m email = none → ∀ x ∈ es, ¬ Eligible lower email x
  present : ∀ email e, mget m email = some e → ∃ e0, Newest lower es email e0 ∧ e = { e0 with subkeys := [] }

theorem newest_skip {lower : Str → Str} {es : List Entity} {email : Str} {e0 x : Entity}
    (h : Newest lower es email e0) (hx : Eligible lower email x → x.created ≤ e0.created) :
    Newest lower (es ++ [x]) email e0 := by
  obtain ⟨b, a, h1, h2, h3, h4⟩ := h
  refine ⟨b, a ++ [x], by rw [h1]; simp, h2, h3, fun y hy => ?_⟩
  rcases List.mem_append.mp hy with hy | hy
  · exact h4 y hy
  · have : y = x := by simpa using hy
    subst this
    exact hx

theorem newest_take {lower : Str → Str} {es : List Entity} {email : Str} {x : Entity}
    (hx : Eligible lower email x) (h : ∀ y ∈ es, Eligible lower email y → y.created < x.created) :
    Newest lower (es ++ [x]) email x := ⟨es, [], rfl, hx, h, by simp⟩

theorem newest_max {lower : Str → Str} {es : List Entity} {email : Str} {e0 : Entity}
    (h : Newest lower es email e0) : ∀ y ∈ es, Eligible lower email y → y.created ≤ e0.created := by
  obtain ⟨b, a, rfl, h2, h3, h4⟩ := h
  intro y hy he
  rcases List.mem_append.mp hy with hy | hy
  · exact le_of_lt (h3 y hy he)
  · rcases List.mem_cons.mp hy with rfl | hy
    · exact le_refl _
    · exact h4 y hy he

theorem save_inv {lower : Str → Str} {es : List Entity} {m : List (Str × Entity)} (h : Inv lower es m) (x : Entity) :
    Inv lower (es ++ [x]) (saveKeyIfValid lower m x) := by
  have keep : (∀ email, email ≠ [] → ¬ Eligible lower email x) → Inv lower (es ++ [x]) m := by
    intro hne
    refine ⟨h.distinct, h.nonempty, fun email he hm y hy => ?_, fun email e hm => ?_⟩
    · rcases List.mem_append.mp hy with hy | hy
      · exact h.absent email he hm y hy
      · have : y = x := by simpa using hy
        subst this
        exact hne email he
    · obtain ⟨e0, h1, h2⟩ := h.present email e hm
      refine ⟨e0, newest_skip h1 (fun hx => ?_), h2⟩
      by_cases he : email = []
      · subst he
        rw [h.nonempty] at hm
        exact absurd hm (by simp)
      · exact absurd hx (hne email he)
  unfold saveKeyIfValid
  by_cases hrev : 0 < x.revocations
  · rw [if_pos hrev]
    exact keep (fun email _ he => by have := he.1; omega)
  · rw [if_neg hrev]
    simp only
    by_cases hem : primaryEmail lower x = []
    · rw [if_pos hem]
      exact keep (fun email hne he => hne (((filed_iff _ _ _).mp he.2).symm.trans hem))
    · rw [if_neg hem]
      have hel : Eligible lower (primaryEmail lower x) x := ⟨by omega, filed lower x⟩
      have hother : ∀ email, email ≠ primaryEmail lower x → ¬ Eligible lower email x :=
        fun email hne he => hne (((filed_iff _ _ _).mp he.2).symm)
      have store : (∀ y ∈ es, Eligible lower (primaryEmail lower x) y → y.created < x.created) →
          Inv lower (es ++ [x]) (mset m (primaryEmail lower x) { x with subkeys := [] }) := by
        intro hlt
        refine ⟨distinct_mset h.distinct _ _, ?_, fun email he hm y hy => ?_, fun email e hm => ?_⟩
        · rw [mget_mset, if_neg (Ne.symm hem)]
          exact h.nonempty
        · rw [mget_mset] at hm
          split at hm
          · cases hm
          · rename_i hne
            rcases List.mem_append.mp hy with hy | hy
            · exact h.absent email he hm y hy
            · have : y = x := by simpa using hy
              subst this
              exact hother email hne
        · rw [mget_mset] at hm
          split at hm
          · rename_i heq
            subst heq
            simp only [Option.some.injEq] at hm
            exact ⟨x, newest_take hel hlt, hm.symm⟩
          · rename_i hne
            obtain ⟨e0, h1, h2⟩ := h.present email e hm
            exact ⟨e0, newest_skip h1 (fun hx => absurd hx (hother email hne)), h2⟩
      cases hg : mget m (primaryEmail lower x) with
      | none =>
        simp only
        exact store (fun y hy he => absurd he (h.absent _ hem hg y hy))
      | some prev =>
        simp only
        obtain ⟨p0, hp1, hp2⟩ := h.present _ _ hg
        have hpc : prev.created = p0.created := by rw [hp2]
        by_cases hlt : prev.created < x.created
        · rw [if_pos hlt]
          exact store (fun y hy he => lt_of_le_of_lt (newest_max hp1 y hy he) (by omega))
        · rw [if_neg hlt]
          refine ⟨h.distinct, h.nonempty, fun email he hm y hy => ?_, fun email e hm => ?_⟩
          · have hne : email ≠ primaryEmail lower x := by
              rintro rfl
              rw [hg] at hm
              cases hm
            rcases List.mem_append.mp hy with hy | hy
            · exact h.absent email he hm y hy
            · have : y = x := by simpa using hy
              subst this
              exact hother email hne
          · obtain ⟨e0, h1, h2⟩ := h.present email e hm
            refine ⟨e0, newest_skip h1 (fun hx => ?_), h2⟩
            have : email = primaryEmail lower x := by
              by_contra hne
              exact hother email hne hx
            subst this
            rw [hg] at hm
            simp only [Option.some.injEq] at hm
            subst hm
            have : e0.created = prev.created := by rw [h2]
            omega

theorem fold_inv {lower : Str → Str} (xs : List Entity) {es : List Entity} {m : List (Str × Entity)}
    (h : Inv lower es m) : Inv lower (es ++ xs) (xs.foldl (saveKeyIfValid lower) m) := by
  induction xs generalizing es m with
  | nil => simpa using h
  | cons x xs ih =>
    have := ih (save_inv h x)
    simpa using this

theorem inv_nil (lower : Str → Str) : Inv lower [] [] :=
  ⟨by simp [Distinct], rfl, by simp, by intro email e h; simp [mget] at h⟩

theorem analyze_spec (lower : Str → Str) (files : List (List Entity)) :
    ∃ m, analyzeKeyDump lower (files.map ok) = ok m ∧ Inv lower files.flatten m := by
  have key : ∀ (files : List (List Entity)) es m, Inv lower es m →
      ∃ m', (files.map ok).foldlM (fun keys (file : Res (List Entity)) => do
        let el ← file
        ok (el.foldl (saveKeyIfValid lower) keys)) m = ok m' ∧ Inv lower (es ++ files.flatten) m' := by
    intro files
    induction files with
    | nil => intro es m h; exact ⟨m, rfl, by simpa using h⟩
    | cons f fs ih =>
      intro es m h
      obtain ⟨m', h1, h2⟩ := ih _ _ (fold_inv f h)
      exact ⟨m', by simpa [List.foldlM_cons] using h1, by simpa using h2⟩
  obtain ⟨m, h1, h2⟩ := key files [] [] (inv_nil lower)
  exact ⟨m, h1, by simpa using h2⟩

end Verif.Pgp
