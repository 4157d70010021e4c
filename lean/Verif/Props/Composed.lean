import Verif.Model.Predicate
import Verif.Props.Encoding
import Verif.Props.Predicate
import Verif.Props.Query

/-! # C26: selectors composed of a year and an e-mail (lib/server/fss.go:86-97, lib/query/query.go:128-141) -/

namespace Verif.Predicate
open Res Verif.Query Verif.Utils

/-- C26: a key has a composed selector exactly if its e-mail has one, of 32 bits more. -/
theorem C26_composed_has (hash : List Byte → List Byte) (i : Info) (ki : KeyInfo) (id : List Bool) :
    selAnd hash i ki = ok (some id) ↔ ∃ y e, idForYearCreationTime ki.creation = ok y ∧ y.length = 32 ∧
      idForEmail hash i ki.email = ok (some e) ∧ id = y ++ e := by
  have hy : ∃ y, idForYearCreationTime ki.creation = ok y ∧ y.length = 32 := by
    unfold idForYearCreationTime
    obtain ⟨out, h1, h2, -⟩ := C26_byteToBits_bits (putBE32 (BitVec.ofInt 32 ki.creation.year))
    exact ⟨out, h1, h2⟩
  obtain ⟨y, hy, hl⟩ := hy
  unfold selAnd
  rw [hy]
  dsimp only
  cases h : idForEmail hash i ki.email with
  | ok o =>
    cases o with
    | none => simp
    | some e =>
      simp only [ok_bind, ok.injEq, Option.some.injEq]
      constructor
      · intro h; exact ⟨y, e, rfl, hl, rfl, h.symm⟩
      · rintro ⟨y', e', rfl, -, rfl, h⟩; exact h.symm
  | err m => simp
  | crash m => simp

/-- C26: two keys have the same composed selector iff they were created in the same year and their e-mails have the same
selector. -/
theorem C26_composed (hash : List Byte → List Byte) (i : Info) (ki ki' : KeyInfo)
    (h : 0 ≤ ki.creation.year ∧ ki.creation.year < 2 ^ 32) (h' : 0 ≤ ki'.creation.year ∧ ki'.creation.year < 2 ^ 32) :
    (∃ id, selAnd hash i ki = ok (some id) ∧ selAnd hash i ki' = ok (some id)) ↔
      ki.creation.year = ki'.creation.year ∧
        ∃ e, idForEmail hash i ki.email = ok (some e) ∧ idForEmail hash i ki'.email = ok (some e) := by
  have hy := (C26_year ki.creation ki'.creation h h').2
  constructor
  · rintro ⟨id, h1, h2⟩
    obtain ⟨y, e, hy1, hl1, he1, rfl⟩ := (C26_composed_has hash i ki id).mp h1
    obtain ⟨y', e', hy2, hl2, he2, heq⟩ := (C26_composed_has hash i ki' _).mp h2
    obtain ⟨rfl, rfl⟩ := List.append_inj heq (by rw [hl1, hl2])
    exact ⟨hy.mp (by rw [hy1, hy2]), e, he1, he2⟩
  · rintro ⟨hyy, e, he1, he2⟩
    obtain ⟨⟨y, hy1, hl1⟩, -⟩ := C26_year ki.creation ki'.creation h h'
    exact ⟨y ++ e, (C26_composed_has hash i ki _).mpr ⟨y, e, hy1, hl1, he1, rfl⟩,
      (C26_composed_has hash i ki' _).mpr ⟨y, e, by rw [← hy.mpr hyy, hy1], hl1, he2, rfl⟩⟩

/-- Two keys of 1970 whose e-mails begin with the same two bytes. -/
example : ∃ id, selAnd _root_.id ⟨3, 2, 0, true, false, false⟩ ⟨[1, 2, 3], dayTime 0, 1⟩ = ok (some id) ∧
    selAnd _root_.id ⟨3, 2, 0, true, false, false⟩ ⟨[1, 2, 9], dayTime 300, 17⟩ = ok (some id) :=
  (C26_composed _root_.id ⟨3, 2, 0, true, false, false⟩ ⟨[1, 2, 3], dayTime 0, 1⟩ ⟨[1, 2, 9], dayTime 300, 17⟩
    (by decide) (by decide)).mpr ⟨by decide, _, rfl, rfl⟩

end Verif.Predicate
