import Verif.Props.Cmd

/-! # What becomes of every configuration, and when the order of iteration matters (C49) -/

namespace Verif.Cmd
open Res Spec

/-- The key of an entry is the text of a number below `n`. -/
def InRange (n : Nat) (e : List Char × Server) : Prop := ∃ i : Nat, IsNumeral e.1 i ∧ i < n

/-- The entry stored under `j` last. -/
def LastAt (l : List (List Char × Server)) (j : Nat) (e : List Char × Server) : Prop :=
  ∃ before after, l = before ++ e :: after ∧ IsNumeral e.1 j ∧ ∀ e' ∈ after, ¬ IsNumeral e'.1 j

/-- The loop over the entries, lib/utils/config.go:33-39 in `loadConfig`. -/
def store (l : List (List Char × Server)) (acc : List String) : Res (List String) :=
  l.foldlM (fun (addresses : List String) (e : List Char × Server) => do
    let i ← atoi e.1
    if i < 0 then crash "index out of range" else
    setAt addresses i.toNat (address e.2)) acc

theorem numeral_unique {s : List Char} {x y : Int} (hx : IsNumeral s x) (hy : IsNumeral s y) : x = y := by
  rw [← atoi_eq_ok] at hx hy
  rw [hx] at hy
  injection hy

theorem store_cons_good {e : List Char × Server} {l : List (List Char × Server)} {acc : List String} {i : Nat}
    (h : IsNumeral e.1 i) (hi : i < acc.length) : store (e :: l) acc = store l (acc.set i (address e.2)) := by
  unfold store
  rw [List.foldlM_cons, (atoi_eq_ok _ _).mpr h, ok_bind, if_neg (by omega), Int.toNat_natCast, setAt_of_lt hi, ok_bind]

theorem store_cons_err {e : List Char × Server} {l : List (List Char × Server)} {acc : List String}
    (h : ¬ ∃ y, IsNumeral e.1 y) : (store (e :: l) acc).isErr := by
  rw [← atoi_isErr] at h
  unfold store
  rw [List.foldlM_cons]
  cases ha : atoi e.1 with
  | ok y => rw [ha] at h; simp at h
  | err m => simp
  | crash m => rw [ha] at h; simp at h

theorem store_cons_crash {e : List Char × Server} {l : List (List Char × Server)} {acc : List String} {y : Int}
    (h : IsNumeral e.1 y) (hy : y < 0 ∨ (acc.length : Int) ≤ y) : (store (e :: l) acc).isCrash := by
  unfold store
  rw [List.foldlM_cons, (atoi_eq_ok _ _).mpr h, ok_bind]
  split
  · simp
  · unfold setAt
    rw [if_neg (by omega)]
    simp

theorem store_good (n : Nat) (l : List (List Char × Server)) (acc : List String) (hacc : acc.length = n)
    (h : ∀ e ∈ l, InRange n e) : ∃ r, store l acc = ok r ∧ r.length = n ∧
      (∀ j e, LastAt l j e → r[j]? = some (address e.2)) ∧
      ∀ j : Nat, (∀ e ∈ l, ¬ IsNumeral e.1 j) → r[j]? = acc[j]? := by
  induction l generalizing acc with
  | nil =>
    refine ⟨acc, rfl, hacc, ?_, fun _ _ => rfl⟩
    rintro j e ⟨before, after, hl, -⟩
    simp at hl
  | cons e l ih =>
    obtain ⟨i, hi, hin⟩ := h e (by simp)
    obtain ⟨r, h1, h2, h3, h4⟩ := ih (acc.set i (address e.2)) (by simp [hacc]) (fun e he => h e (by simp [he]))
    refine ⟨r, by rw [store_cons_good hi (by omega), h1], h2, ?_, ?_⟩
    · rintro j e' ⟨before, after, hl, hj, ha⟩
      cases before with
      | nil =>
        simp only [List.nil_append, List.cons.injEq] at hl
        obtain ⟨rfl, rfl⟩ := hl
        have hij : i = j := by have := numeral_unique hi hj; omega
        subst hij
        rw [h4 i ha, List.getElem?_set_self (by omega)]
      | cons b before =>
        simp only [List.cons_append, List.cons.injEq] at hl
        exact h3 j e' ⟨before, after, hl.2, hj, ha⟩
    · intro j hj
      rw [h4 j (fun e he => hj e (by simp [he])), List.getElem?_set_ne]
      rintro rfl
      exact hj e (by simp) hi

theorem store_append {l l' : List (List Char × Server)} {acc : List String} :
    store (l ++ l') acc = (store l acc >>= store l') := by
  unfold store
  rw [List.foldlM_append]

/-- Either all keys are in range, or there is a first that is not. -/
theorem first_bad (n : Nat) (l : List (List Char × Server)) : (∀ e ∈ l, InRange n e) ∨
    ∃ before e after, l = before ++ e :: after ∧ (∀ e' ∈ before, InRange n e') ∧ ¬ InRange n e := by
  classical
  induction l with
  | nil => exact Or.inl (by simp)
  | cons e l ih =>
    by_cases he : InRange n e
    · rcases ih with ih | ⟨before, e', after, rfl, h2, h3⟩
      · left
        intro e' h
        rcases List.mem_cons.mp h with rfl | h
        · exact he
        · exact ih e' h
      · right
        refine ⟨e :: before, e', after, rfl, ?_, h3⟩
        intro x hx
        rcases List.mem_cons.mp hx with rfl | hx
        · exact he
        · exact h2 x hx
    · exact Or.inr ⟨[], e, l, rfl, by simp, he⟩

/-- C49: every configuration is loaded exactly if all its keys are numbers below the number of servers. Otherwise the first
other key in the order of iteration decides: if it is no number the caller gets an error, if it is out of range the program
crashes. -/
theorem C49_outcome (order : List (List Char × Server)) :
    ((∃ l, loadConfig order = ok l) ↔ ∀ e ∈ order, InRange order.length e) ∧
    ((loadConfig order).isErr ↔ ∃ before e after, order = before ++ e :: after ∧
      (∀ e' ∈ before, InRange order.length e') ∧ ¬ ∃ y, IsNumeral e.1 y) ∧
    ((loadConfig order).isCrash ↔ ∃ before e after, order = before ++ e :: after ∧
      (∀ e' ∈ before, InRange order.length e') ∧ ∃ y, IsNumeral e.1 y ∧ (y < 0 ∨ (order.length : Int) ≤ y)) := by
  have hstore : loadConfig order = store order (List.replicate order.length "") := rfl
  have A : (∀ e ∈ order, InRange order.length e) → ∃ l, loadConfig order = ok l := by
    intro h
    obtain ⟨r, h1, -⟩ := store_good order.length order (List.replicate order.length "") (by simp) h
    exact ⟨r, by rw [hstore, h1]⟩
  have reach : ∀ before e after, order = before ++ e :: after → (∀ e' ∈ before, InRange order.length e') →
      ∃ acc, acc.length = order.length ∧ loadConfig order = store (e :: after) acc := by
    intro before e after ho hb
    obtain ⟨r, h1, h2, -⟩ := store_good order.length before (List.replicate order.length "") (by simp) hb
    refine ⟨r, h2, ?_⟩
    rw [hstore]
    conv_lhs => rw [ho]
    rw [store_append, ← ho, h1, ok_bind]
  have B : (∃ before e after, order = before ++ e :: after ∧
      (∀ e' ∈ before, InRange order.length e') ∧ ¬ ∃ y, IsNumeral e.1 y) → (loadConfig order).isErr := by
    rintro ⟨before, e, after, ho, hb, he⟩
    obtain ⟨acc, -, h2⟩ := reach before e after ho hb
    rw [h2]
    exact store_cons_err he
  have C : (∃ before e after, order = before ++ e :: after ∧ (∀ e' ∈ before, InRange order.length e') ∧
      ∃ y, IsNumeral e.1 y ∧ (y < 0 ∨ (order.length : Int) ≤ y)) → (loadConfig order).isCrash := by
    rintro ⟨before, e, after, ho, hb, y, hy, hr⟩
    obtain ⟨acc, h1, h2⟩ := reach before e after ho hb
    rw [h2]
    exact store_cons_crash hy (by rw [h1]; exact hr)
  have D : (∀ e ∈ order, InRange order.length e) ∨ (∃ before e after, order = before ++ e :: after ∧
      (∀ e' ∈ before, InRange order.length e') ∧ ¬ ∃ y, IsNumeral e.1 y) ∨
      ∃ before e after, order = before ++ e :: after ∧ (∀ e' ∈ before, InRange order.length e') ∧
      ∃ y, IsNumeral e.1 y ∧ (y < 0 ∨ (order.length : Int) ≤ y) := by
    rcases first_bad order.length order with h | ⟨before, e, after, h1, h2, h3⟩
    · exact Or.inl h
    · right
      by_cases hy : ∃ y, IsNumeral e.1 y
      · right
        obtain ⟨y, hy⟩ := hy
        refine ⟨before, e, after, h1, h2, y, hy, ?_⟩
        by_contra hr
        push Not at hr
        obtain ⟨i, rfl⟩ := Int.eq_ofNat_of_zero_le hr.1
        exact h3 ⟨i, hy, by omega⟩
      · exact Or.inl ⟨before, e, after, h1, h2, hy⟩
  refine ⟨⟨?_, A⟩, ⟨?_, B⟩, ⟨?_, C⟩⟩
  · rintro ⟨l, hl⟩
    rcases D with h | h | h
    · exact h
    · have := B h; rw [hl] at this; simp at this
    · have := C h; rw [hl] at this; simp at this
  · intro he
    rcases D with h | h | h
    · obtain ⟨l, hl⟩ := A h; rw [hl] at he; simp at he
    · exact h
    · have := C h
      cases hl : loadConfig order <;> rw [hl] at this he <;> simp at this he
  · intro he
    rcases D with h | h | h
    · obtain ⟨l, hl⟩ := A h; rw [hl] at he; simp at he
    · have := B h
      cases hl : loadConfig order <;> rw [hl] at this he <;> simp at this he
    · exact h

/-- C49: the list loaded has one place for each entry. A number that some key denotes has the address of the entry that was
iterated last among those, any other number has the empty address. -/
theorem C49_loaded {order : List (List Char × Server)} {l : List String} (h : loadConfig order = ok l) :
    l.length = order.length ∧ (∀ j e, LastAt order j e → l[j]? = some (address e.2)) ∧
      ∀ j, j < order.length → (∀ e ∈ order, ¬ IsNumeral e.1 j) → l[j]? = some "" := by
  have hg := (C49_outcome order).1.mp ⟨l, h⟩
  obtain ⟨r, h1, h2, h3, h4⟩ := store_good order.length order (List.replicate order.length "") (by simp) hg
  have : loadConfig order = store order (List.replicate order.length "") := rfl
  rw [this, h1] at h
  cases h
  refine ⟨h2, h3, ?_⟩
  intro j hj hn
  rw [h4 j hn, List.getElem?_replicate, if_pos hj]

theorem last_at_exists {l : List (List Char × Server)} {j : Nat} (h : ∃ e ∈ l, IsNumeral e.1 j) :
    ∃ e ∈ l, LastAt l j e := by
  classical
  induction l with
  | nil => simp at h
  | cons a l ih =>
    by_cases hl : ∃ e ∈ l, IsNumeral e.1 j
    · obtain ⟨e, h1, before, after, h2, h3⟩ := ih hl
      exact ⟨e, by simp [h1], a :: before, after, by rw [h2]; rfl, h3⟩
    · obtain ⟨e, he, hj⟩ := h
      rcases List.mem_cons.mp he with rfl | he
      · refine ⟨e, by simp, [], l, rfl, hj, ?_⟩
        intro e' he' hj'
        exact hl ⟨e', he', hj'⟩
      · exact absurd ⟨e, he, hj⟩ hl

/-- C49: for a configuration that can be loaded, the addresses are the same in every order of iteration exactly if entries
whose keys denote the same number have the same address. -/
theorem C49_order_exact (servers : List (List Char × Server)) (hr : ∀ e ∈ servers, InRange servers.length e) :
    (∀ order order' : List (List Char × Server), order.Perm servers → order'.Perm servers →
      loadConfig order = loadConfig order') ↔
    ∀ e ∈ servers, ∀ e' ∈ servers, ∀ j : Nat, IsNumeral e.1 j → IsNumeral e'.1 j → address e.2 = address e'.2 := by
  have hload : ∀ order : List (List Char × Server), order.Perm servers → ∃ l, loadConfig order = ok l := by
    intro order hp
    refine (C49_outcome order).1.mpr ?_
    intro e he
    rw [hp.length_eq]
    exact hr e (hp.mem_iff.mp he)
  constructor
  · intro h e he e' he' j hj hj'
    have put : ∀ e ∈ servers, IsNumeral e.1 j → ∃ order l, order.Perm servers ∧ loadConfig order = ok l ∧
        l[j]? = some (address e.2) := by
      intro e he hj
      obtain ⟨s, t, hst⟩ := List.append_of_mem he
      have hp : (s ++ t ++ [e]).Perm servers := by
        rw [hst, List.append_assoc]
        exact List.Perm.append_left s (List.perm_append_singleton e t)
      obtain ⟨l, hl⟩ := hload _ hp
      exact ⟨_, l, hp, hl, (C49_loaded hl).2.1 j e ⟨s ++ t, [], rfl, hj, by simp⟩⟩
    obtain ⟨o, l, h1, h2, h3⟩ := put e he hj
    obtain ⟨o', l', h1', h2', h3'⟩ := put e' he' hj'
    have := h o o' h1 h1'
    rw [h2, h2'] at this
    injection this with this
    rw [this, h3'] at h3
    injection h3 with h3
    exact h3.symm
  · intro h order order' hp hp'
    obtain ⟨l, hl⟩ := hload order hp
    obtain ⟨l', hl'⟩ := hload order' hp'
    obtain ⟨h1, h2, h3⟩ := C49_loaded hl
    obtain ⟨h1', h2', h3'⟩ := C49_loaded hl'
    rw [hl, hl']
    congr 1
    apply List.ext_getElem?
    intro j
    have hlen := hp.length_eq
    have hlen' := hp'.length_eq
    by_cases hj : j < servers.length
    · by_cases hex : ∃ e ∈ servers, IsNumeral e.1 j
      · obtain ⟨e, he, hje⟩ := hex
        obtain ⟨a, ha, hla⟩ := last_at_exists (l := order) ⟨e, hp.mem_iff.mpr he, hje⟩
        obtain ⟨a', ha', hla'⟩ := last_at_exists (l := order') ⟨e, hp'.mem_iff.mpr he, hje⟩
        rw [h2 j a hla, h2' j a' hla']
        obtain ⟨-, -, -, hja, -⟩ := hla
        obtain ⟨-, -, -, hja', -⟩ := hla'
        rw [h a (hp.mem_iff.mp ha) a' (hp'.mem_iff.mp ha') j hja hja']
      · have hno : ∀ e ∈ servers, ¬ IsNumeral e.1 j := fun e he hje => hex ⟨e, he, hje⟩
        rw [h3 j (by omega) (fun e he => hno e (hp.mem_iff.mp he)),
          h3' j (by omega) (fun e he => hno e (hp'.mem_iff.mp he))]
    · rw [List.getElem?_eq_none (by omega), List.getElem?_eq_none (by omega)]

/-- The keys 0 and 00 are in range and denote the same number, so that the order matters when the addresses differ. -/
example : ¬ ∀ order order' : List (List Char × Server),
    order.Perm [("0".toList, ⟨0, "a", 1⟩), ("00".toList, ⟨0, "b", 1⟩)] →
    order'.Perm [("0".toList, ⟨0, "a", 1⟩), ("00".toList, ⟨0, "b", 1⟩)] → loadConfig order = loadConfig order' := by
  have h0 : IsNumeral "0".toList ((0 : Nat) : Int) := (atoi_eq_ok _ _).mp (by decide)
  have h00 : IsNumeral "00".toList ((0 : Nat) : Int) := (atoi_eq_ok _ _).mp (by decide)
  rw [C49_order_exact]
  · intro h
    have := h ("0".toList, ⟨0, "a", 1⟩) (by simp) ("00".toList, ⟨0, "b", 1⟩) (by simp) 0 h0 h00
    exact absurd this (by decide)
  · intro e he
    simp only [List.mem_cons, List.not_mem_nil, or_false] at he
    rcases he with rfl | rfl
    · exact ⟨0, h0, by simp⟩
    · exact ⟨0, h00, by simp⟩

/-- With a key that is no number and one that is out of range the order of iteration decides between an error and a crash. -/
example : (loadConfig [("x".toList, ⟨0, "a", 1⟩), ("7".toList, ⟨1, "b", 1⟩)]).isErr ∧
    (loadConfig [("7".toList, ⟨1, "b", 1⟩), ("x".toList, ⟨0, "a", 1⟩)]).isCrash := by decide

end Verif.Cmd
