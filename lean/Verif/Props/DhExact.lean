import Verif.Props.Dh
import Verif.Lemmas.Local

/-! # Exactly when group elements are read back and bits are retrieved where the neutral element is short (C43, C39) -/

namespace Verif.Dh
open Res Spec Finset

variable {G : Type} [AddCommGroup G] [DecidableEq G]

omit [DecidableEq G] in
/-- The encoding of a vector is shorter than announced exactly if the neutral element is among its elements. -/
theorem short_length (g : Grp G) (n : Nat) (hs : ShortIdentity g n) (l : List G) :
    (l.flatMap g.enc).length ≤ l.length * n ∧ ((0 : G) ∈ l → (l.flatMap g.enc).length < l.length * n) := by
  classical
  induction l with
  | nil => simp
  | cons x l ih =>
    rw [List.flatMap_cons, List.length_append, List.length_cons, Nat.succ_mul]
    have hx : (g.enc x).length ≤ n ∧ (x = 0 → (g.enc x).length < n) := by
      by_cases h0 : x = 0
      · subst h0
        have := hs.1
        rw [hs.2.1]
        exact ⟨by omega, fun _ => by omega⟩
      · exact ⟨le_of_eq (hs.2.2 x h0), fun h => absurd h h0⟩
    refine ⟨by omega, fun hm => ?_⟩
    rcases List.mem_cons.mp hm with h0 | hm
    · have := hx.2 h0.symm
      omega
    · have := ih.2 hm
      omega

omit [DecidableEq G] in
/-- C43: where the neutral element has a shorter encoding, a vector is read back exactly if it does not contain it. -/
theorem C43_exact (g : Grp G) (n : Nat) (hs : ShortIdentity g n) (hd : Decodes g) (v : List G) :
    unmarshalGroupElements g (marshalGroupElements g v) n = ok v ↔ (0 : G) ∉ v := by
  constructor
  · intro h hv
    exact C43_identity_never g n hs v hv h
  · intro hv
    have := hs.1
    exact C43_roundtrip_partial g n (by omega) hd v (fun x hx => hs.2.2 x (fun h0 => hv (h0 ▸ hx)))

/-- C39: where the neutral element has a shorter encoding, and it is not an element of the query, the honest exchange returns
the stored bit exactly if it is neither the digest nor the answer of any row, requested or not. -/
theorem C39_exact (g : Grp G) (db : Elliptic) (r t : Int) (k : Nat) (hd : Decodes g)
    (hs : ShortIdentity g db.info.elementSize) (hcom : Committed g db) (hC : db.info.numColumns ≤ 2 ^ 63)
    (hk : k < db.info.numRows * db.info.numColumns)
    (ht : t • hashIndexToGroup g (k % db.info.numColumns) ≠ 0)
    (hq : ∀ j, j < db.info.numColumns → queryElement (hashIndexToGroup g) r t (k % db.info.numColumns) j ≠ 0) :
    (∃ q st a, queryBytes g db.info r t k = ok (q, st) ∧ answerBytes g db q = ok a ∧
      reconstructBytes g db.info st a = ok (if db.entries.getD k 0 = 1 then 1 else 0)) ↔
    ∀ i, i < db.info.numRows → rowSum db (hashIndexToGroup g) i ≠ 0 ∧
      rowSum db (queryElement (hashIndexToGroup g) r t (k % db.info.numColumns)) i ≠ 0 := by
  have hn := hs.1
  have hC0 : 0 < db.info.numColumns := by
    rcases Nat.eq_zero_or_pos db.info.numColumns with h | h
    · rw [h] at hk
      omega
    · exact h
  constructor
  · rintro ⟨q, st, a, h1, h2, h3⟩ i hi
    constructor
    · intro h0
      have := digests_full g db hcom (Or.inr hs) st a _ h3 i hi
      rw [h0, hs.2.1] at this
      omega
    · intro h0
      rw [query_eq g db.info r t k hC0 (by omega)] at h1
      simp only [ok.injEq, Prod.mk.injEq] at h1
      obtain ⟨rfl, -⟩ := h1
      rw [answer_eq g db hcom.complete (by omega) hd _ (fun j hj => hs.2.2 _ (hq j hj))] at h2
      cases h2
      unfold reconstructBytes at h3
      obtain ⟨ans, h4, h3⟩ := bind_eq_ok.mp h3
      have hlen := unmarshal_length h4
      rw [marshal_eq] at hlen
      have hlt := (short_length g _ hs ((List.range db.info.numRows).map
        (rowSum db (queryElement (hashIndexToGroup g) r t (k % db.info.numColumns))))).2
        (List.mem_map.mpr ⟨i, List.mem_range.mpr hi, h0⟩)
      rw [← hlen, List.length_map, List.length_range] at hlt
      have hfew : ans.length < db.info.numRows := Nat.lt_of_mul_lt_mul_right hlt
      obtain ⟨u, u', hb⟩ := Local.forLoop_at h3 (db.info.numRows - 1) (by omega)
      obtain ⟨b, -, hb⟩ := bind_eq_ok.mp hb
      obtain ⟨d, -, hb⟩ := bind_eq_ok.mp hb
      obtain ⟨ai, h5, hb⟩ := bind_eq_ok.mp hb
      rw [idx, List.getElem?_eq_none (by omega)] at h5
      cases h5
  · intro h
    exact C39_retrieve_partial g db r t k hd (by omega) hcom hC hk ht (fun j hj => hs.2.2 _ (hq j hj))
      (fun i hi => hs.2.2 _ (h i hi).1) (fun i hi => hs.2.2 _ (h i hi).2)

/-- The two rows of `C39_retrieve_partial` are on the positive side. -/
example : ∀ i, i < twoRows.info.numRows → rowSum twoRows (hashIndexToGroup shortGroup) i ≠ 0 ∧
    rowSum twoRows (queryElement (hashIndexToGroup shortGroup) 1 2 (1 % twoRows.info.numColumns)) i ≠ 0 :=
  (C39_exact shortGroup twoRows 1 2 1 shortGroup_decodes shortGroup_short twoRows_committed (by decide) (by decide)
    (by decide) (by decide)).mp
    (C39_retrieve_partial shortGroup twoRows 1 2 1 shortGroup_decodes (by decide) twoRows_committed (by decide) (by decide)
      (by decide) (by decide) (by decide) (by decide))

end Verif.Dh
