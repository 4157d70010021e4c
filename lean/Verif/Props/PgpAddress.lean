import Verif.Props.Pgp

/-! # C74: the address under which a key is stored and found -/

namespace Verif.Pgp
open Res Spec

/-- The lower-case letter of a letter of the ASCII alphabet. -/
def asciiLower (b : Byte) : Byte := if 65 ≤ b.toNat ∧ b.toNat ≤ 90 then b + 32 else b

/-- What `strings.ToLower` does to ASCII texts. -/
def LowersAscii (lower : Str → Str) : Prop := ∀ s : Str, (∀ b ∈ s, b.toNat < 128) → lower s = s.map asciiLower

/-- The documentation of `PrimaryEmail` (lib/pgp/pgp.go:231-232): "the lower-cased email from the primary identity, or if it is
empty, the alphabetically first non-empty lower-cased email". -/
def Documented (lower : Str → Str) (e : Entity) (m : Str) : Prop :=
  (e.primary ≠ [] ∧ m = lower e.primary) ∨
  (e.primary = [] ∧ (∃ x ∈ e.emails, x ≠ [] ∧ m = lower x) ∧ ∀ y ∈ e.emails, y ≠ [] → ¬ Less (lower y) m) ∨
  (e.primary = [] ∧ (∀ y ∈ e.emails, y = []) ∧ m = lower [])

/-- The addresses of two keys differ in the case of letters only. -/
def SameUpToCase (lower : Str → Str) (e e' : Entity) : Prop :=
  (e.primary = [] ↔ e'.primary = []) ∧ lower e.primary = lower e'.primary ∧ e.emails.length = e'.emails.length ∧
    ∀ i (h : i < e.emails.length) (h' : i < e'.emails.length), lower e.emails[i] = lower e'.emails[i]

/-- C74 as claimed: keys are stored under the documented address, which does not depend on the case of letters. -/
def C74_Statement : Prop :=
  ∀ lower : Str → Str, LowersAscii lower → (∀ e, Documented lower e (primaryEmail lower e)) ∧
    ∀ e e', SameUpToCase lower e e' → primaryEmail lower e = primaryEmail lower e'

/-- C74: the order in which Go enumerates the identities of a key does not matter. -/
theorem C74_order (lower : Str → Str) (e e' : Entity) (hp : e.primary = e'.primary) (he : e.emails.Perm e'.emails) :
    primaryEmail lower e = primaryEmail lower e' := by
  rw [← filed_iff]
  have h := filed lower e'
  unfold FiledUnder at h ⊢
  rw [hp]
  simp only [he.mem_iff]
  exact h

/-- C74: a key whose primary identity has an e-mail is stored under this e-mail, whatever its other identities and whatever
the case of letters. -/
theorem C74_primary (lower : Str → Str) (e e' : Entity) (hp : e.primary ≠ []) (hp' : e'.primary ≠ [])
    (h : lower e.primary = lower e'.primary) :
    primaryEmail lower e = lower e.primary ∧ primaryEmail lower e = primaryEmail lower e' := by
  have h1 : primaryEmail lower e = lower e.primary := by
    rw [← filed_iff]
    exact Or.inl ⟨hp, rfl⟩
  refine ⟨h1, ?_⟩
  rw [h1, h]
  symm
  rw [← filed_iff]
  exact Or.inl ⟨hp', rfl⟩

/-- C74, what holds: keys are stored under the documented address if lower-casing does not change which of their e-mails comes
first. Missing from the full claim: keys without e-mail in the primary identity that have e-mails in the others which mix upper
and lower case, for which it is false. -/
theorem C74_documented_partial (lower : Str → Str) (e : Entity)
    (hmono : e.primary = [] → ∀ x ∈ e.emails, ∀ y ∈ e.emails, x ≠ [] → y ≠ [] → ¬ Less y x → ¬ Less (lower y) (lower x)) :
    Documented lower e (primaryEmail lower e) := by
  rcases filed lower e with h | ⟨hp, x, hx, hx0, hmin, he⟩ | h
  · exact Or.inl h
  · refine Or.inr (Or.inl ⟨hp, ⟨x, hx, hx0, he⟩, ?_⟩)
    intro y hy hy0
    rw [he]
    exact hmono hp x hx y hy hx0 hy0 (hmin y hy hy0)
  · exact Or.inr (Or.inr h)

/-- C74: in particular if all e-mails are written in lower case. -/
theorem C74_lower_case_partial (lower : Str → Str) (e : Entity) (hlow : ∀ x ∈ e.emails, lower x = x) :
    Documented lower e (primaryEmail lower e) :=
  C74_documented_partial lower e (fun _ x hx y hy _ _ h => by rw [hlow x hx, hlow y hy]; exact h)

/-- A key without e-mail in the primary identity and with two others: "Z" and "a". -/
def exMixed : Entity := ⟨0, [], [[90], [97]], 0, [], []⟩

/-- C74 as claimed is false: "Z" comes before "a", so that the key is stored under "z". Written as "z", it is stored
under "a". -/
theorem C74_refuted : ¬ C74_Statement := by
  intro h
  obtain ⟨h1, -⟩ := h (fun s => s.map asciiLower) (fun s _ => rfl)
  rcases h1 exMixed with ⟨h2, -⟩ | ⟨-, -, h2⟩ | ⟨-, h2, -⟩
  · exact h2 rfl
  · exact h2 [97] (by decide) (by decide) (by decide)
  · exact absurd (h2 [90] (by decide)) (by decide)

theorem C74_case_refuted : ∃ e e', SameUpToCase (fun s => s.map asciiLower) e e' ∧
    primaryEmail (fun s => s.map asciiLower) e = [122] ∧ primaryEmail (fun s => s.map asciiLower) e' = [97] := by
  refine ⟨exMixed, { exMixed with emails := [[122], [97]] }, ?_, by decide, by decide⟩
  unfold SameUpToCase
  decide

example : Documented (fun s => s.map asciiLower) { exMixed with emails := [[122], [97]] }
    (primaryEmail (fun s => s.map asciiLower) { exMixed with emails := [[122], [97]] }) :=
  C74_lower_case_partial _ _ (by decide)

example : primaryEmail (fun s => s.map asciiLower) { exMixed with emails := [[97], [90]] } =
    primaryEmail (fun s => s.map asciiLower) exMixed :=
  C74_order _ _ _ rfl (by decide)

example : primaryEmail (fun s => s.map asciiLower) { exMixed with primary := [65] } =
    primaryEmail (fun s => s.map asciiLower) { exMixed with primary := [97] } :=
  (C74_primary _ _ _ (by decide) (by decide) (by decide)).2

end Verif.Pgp
