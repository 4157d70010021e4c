import Verif.Props.Predicate

/-! # C21: texts of any length

Texts of more than 32 bytes exceed the 256 bits the point functions are made for. -/

namespace Verif.Predicate
open Res Verif.Field Verif.Field.Spec Verif.Fss Verif.Fss.Spec Verif.Query Verif.Predicate.Spec

/-- The options with which the interactive and the web client count e-mails that begin or end with a text. -/
def textInfo (begins : Bool) (text : List Byte) : Info :=
  ⟨0, if begins then text.length else 0, if begins then 0 else text.length, false, false, false⟩

theorem bits8_top (c : Byte) : (Utils.bits8 c).set 0 false = Utils.bits8 (c &&& 0x7f) := by
  simp [Utils.bits8, List.range_succ]

theorem modify_mid {α : Type _} (a b : List α) (c : α) (f : α → α) :
    (a ++ c :: b).modify a.length f = a ++ f c :: b := by
  induction a with
  | nil => simp
  | cons x a ih => simp [ih]

theorem clear256_bits (l : List Byte) : clear256 (l.flatMap Utils.bits8) = (withoutTop l).flatMap Utils.bits8 := by
  unfold clear256 withoutTop
  by_cases h : l.length ≤ 32
  · rw [List.set_eq_of_length_le (by rw [bits_length]; omega), List.modify_eq_self h]
  · obtain ⟨a, c, b, rfl, ha⟩ : ∃ a c b, l = a ++ c :: b ∧ a.length = 32 := by
      refine ⟨l.take 32, l[32], l.drop 33, ?_, by simp; omega⟩
      rw [List.getElem_cons_drop, List.take_append_drop]
    have hl : (a.flatMap Utils.bits8).length = 256 := by rw [bits_length, ha]
    have hm : (a ++ c :: b).modify 32 (fun c => c &&& 0x7f) = a ++ (c &&& 0x7f) :: b := by
      rw [← ha]; exact modify_mid a b c _
    rw [hm, List.flatMap_append, List.flatMap_append, List.flatMap_cons, List.flatMap_cons,
      List.set_append_right _ _ (by omega), hl, Nat.sub_self, List.set_append_left _ _ (by simp [Utils.bits8]), bits8_top]

theorem text_valid (b : Bool) (text : List Byte) : EmailValid (textInfo b text) text := by
  cases b <;> simp [EmailValid, textInfo]

/-- The part of an e-mail address that is compared. -/
theorem text_sel {hash : List Byte → List Byte} {b : Bool} {text : List Byte} (ht : text ≠ []) (e : List Byte) :
    emailSel hash (textInfo b text) e = if text.length ≤ e.length then
      some ((if b then e.take text.length else e.drop (e.length - text.length)).flatMap Utils.bits8) else none := by
  have hl : 0 < text.length := List.length_pos_iff.mpr ht
  have hp : (text.length : Int) ≠ 0 := by omega
  unfold emailSel textInfo
  cases b
  · simp only [Bool.false_eq_true, if_false, ne_eq, not_true_eq_false, hp, not_false_eq_true, if_true,
      Int.toNat_natCast, Nat.cast_le]
  · simp only [if_true, ne_eq, hp, not_false_eq_true, Int.toNat_natCast, Nat.cast_le]

theorem text_query {hash : List Byte → List Byte} (hh : ∀ e, (hash e).length = 32) {b : Bool} {text : List Byte}
    (ht : text ≠ []) : toEmailClientFSS hash (textInfo b text) text =
      ok ⟨textInfo b text, text.flatMap Utils.bits8⟩ := by
  unfold toEmailClientFSS
  rw [idForEmail_sel hh (text_valid b text), ok_bind, text_sel ht, if_pos le_rfl]
  cases b <;> simp [orNil]

theorem text_count (W : World) (ex : Nat) (hex : 0 < ex) (hex20 : ex < 20) (db : KeyDB) (begins : Bool)
    (text : List Byte) (q : ClientFSS) (hh : ∀ e, (W.hash e).length = 32) (hR : Ready W ex) (hdb : Loaded db)
    (ht : text ≠ []) (hq : toEmailClientFSS W.hash (textInfo begins text) text = ok q) (hno : NoHits W ex db q)
    (P : KeyInfo → Prop) (hP : ∀ ki ∈ db.keys, P ki ↔ ∃ part, part.length = text.length ∧
      AtEnd begins part ki.email ∧ withoutTop part = text) :
    (∃ r, W.run ex db q true = ok r ∧ r.toNat = numMatching db P % p) ∧
    (∃ r, W.run ex db q false = ok r ∧ (r.toNat + numMatching db P) % p = 0) := by
  rw [text_query hh ht] at hq
  simp only [ok.injEq] at hq
  subst hq
  have hlen : ∀ ki ∈ db.keys, ∀ id, emailSel W.hash (textInfo begins text) ki.email = some id →
      id.length = (text.flatMap Utils.bits8).length := by
    intro ki _ id hid
    have h1 := emailSel_length hh (text_valid begins text) hid
    have h2 := emailSel_length hh (text_valid begins text) (e := text) (id := text.flatMap Utils.bits8) (by
      rw [text_sel ht, if_pos le_rfl]
      cases begins <;> simp)
    rw [h1, h2]
  have h := count_run_long hex hex20 hR hdb (q := ⟨textInfo begins text, text.flatMap Utils.bits8⟩) rfl rfl
    (Or.inr (by simp [textInfo])) hno (f := fun ki => emailSel W.hash (textInfo begins text) ki.email)
    (fun ki _ => idForEmail_sel hh (text_valid begins text) ki.email) hlen
  have e : db.keys.countP (fun ki => decide ((emailSel W.hash (textInfo begins text) ki.email).map clear256 =
      some (text.flatMap Utils.bits8))) = numMatching db P := by
    unfold numMatching
    apply List.countP_congr
    intro ki hki
    simp only [decide_eq_true_eq, hP ki hki, text_sel ht]
    by_cases hle : text.length ≤ ki.email.length
    · rw [if_pos hle, Option.map_some, clear256_bits, Option.some.injEq]
      constructor
      · intro hb
        refine ⟨_, ?_, ?_, Utils.flatMap_bits8_inj hb⟩
        · cases begins <;> simp <;> omega
        · cases begins
          · exact List.drop_suffix _ _
          · exact List.take_prefix _ _
      · rintro ⟨part, hl, ha, hw⟩
        cases begins
        · have : part <:+ ki.email := ha
          rw [List.suffix_iff_eq_drop.mp this, hl] at hw
          simp only [Bool.false_eq_true, if_false]
          rw [hw]
        · have : part <+: ki.email := ha
          rw [List.prefix_iff_eq_take.mp this, hl] at hw
          simp only [if_true]
          rw [hw]
    · rw [if_neg hle]
      constructor
      · intro hb; simp at hb
      · rintro ⟨part, hl, ha, -⟩
        exfalso
        apply hle
        cases begins
        · have : part <:+ ki.email := ha
          rw [← hl]; exact this.length_le
        · have : part <+: ki.email := ha
          rw [← hl]; exact this.length_le
  simp only [e] at h
  exact h

/-- C21, for text of any length: what is counted are the keys whose e-mail address begins (or ends) with the text, except
that the highest bit of the 33rd byte of the address part is taken to be 0. -/
theorem C21_text_any_length (W : World) (ex : Nat) (hex : 0 < ex) (hex20 : ex < 20) (db : KeyDB) (begins : Bool)
    (text : List Byte) (q : ClientFSS) (hh : ∀ e, (W.hash e).length = 32) (hR : Ready W ex) (hdb : Loaded db)
    (ht : text ≠ []) (hq : toEmailClientFSS W.hash (textInfo begins text) text = ok q) (hno : NoHits W ex db q) :
    ∃ r, W.run ex db q true = ok r ∧ r.toNat = numMatching db (fun ki => ∃ part, part.length = text.length ∧
      AtEnd begins part ki.email ∧ withoutTop part = text) % p :=
  (text_count W ex hex hex20 db begins text q hh hR hdb ht hq hno _ (fun _ _ => Iff.rfl)).1

theorem withoutTop_ascii {l : List Byte} (h : l.length ≤ 32 ∨ Ascii l) : withoutTop l = l := by
  unfold withoutTop
  rcases h with h | h
  · exact List.modify_eq_self h
  · apply List.ext_getElem (by simp)
    intro n h1 h2
    rw [List.getElem_modify]
    split
    · have hc := h l[n] (List.getElem_mem h2)
      apply BitVec.eq_of_toNat_eq
      rw [BitVec.toNat_and]
      show l[n].toNat &&& 127 = _
      rw [show 127 = 2 ^ 7 - 1 from rfl, Nat.and_two_pow_sub_one_eq_mod]
      exact Nat.mod_eq_of_lt hc
    · rfl

theorem ascii_part {b : Bool} {part e : List Byte} (h : AtEnd b part e) (he : Ascii e) : Ascii part := by
  cases b
  · exact fun c hc => he c (List.IsSuffix.subset h hc)
  · exact fun c hc => he c (List.IsPrefix.subset h hc)

theorem text_ascii {b : Bool} {text : List Byte} {e : List Byte} (h : text.length ≤ 32 ∨ Ascii text ∧ Ascii e) :
    AtEnd b text e ↔ ∃ part, part.length = text.length ∧ AtEnd b part e ∧ withoutTop part = text := by
  constructor
  · intro ha
    exact ⟨text, rfl, ha, withoutTop_ascii (h.imp_right And.left)⟩
  · rintro ⟨part, hl, ha, hw⟩
    rw [withoutTop_ascii (h.imp (by omega) (fun h => ascii_part ha h.2))] at hw
    rwa [← hw]

/-- C21 (positive part) for prefixes and suffixes: texts of at most 32 bytes, and longer ones if all addresses are ASCII.
Missing: runs in which a derived value equals the modulus, and non-ASCII texts and addresses of more than 32 bytes. -/
theorem C21_ascii_partial (W : World) (ex : Nat) (hex : 0 < ex) (hex20 : ex < 20) (db : KeyDB) (begins : Bool)
    (text : List Byte) (q : ClientFSS) (hh : ∀ e, (W.hash e).length = 32) (hR : Ready W ex) (hdb : Loaded db)
    (ht : text ≠ []) (hq : toEmailClientFSS W.hash (textInfo begins text) text = ok q) (hno : NoHits W ex db q)
    (ha : text.length ≤ 32 ∨ Ascii text ∧ ∀ ki ∈ db.keys, Ascii ki.email) :
    ∃ r, W.run ex db q true = ok r ∧ r.toNat = numMatching db (fun ki => AtEnd begins text ki.email) % p :=
  (text_count W ex hex hex20 db begins text q hh hR hdb ht hq hno _
    (fun ki hki => text_ascii (ha.imp_right (fun h => ⟨h.1, h.2 ki hki⟩)))).1

/-- C21: if the 33rd byte of the text is not ASCII, the result is 0 for every database. -/
theorem C21_long_not_ascii_counts_nothing (W : World) (ex : Nat) (hex : 0 < ex) (hex20 : ex < 20) (db : KeyDB)
    (begins : Bool) (text : List Byte) (q : ClientFSS) (hh : ∀ e, (W.hash e).length = 32) (hR : Ready W ex)
    (hdb : Loaded db) (hq : toEmailClientFSS W.hash (textInfo begins text) text = ok q) (hno : NoHits W ex db q)
    (c : Byte) (hc : text[32]? = some c) (h128 : 128 ≤ c.toNat) : W.run ex db q true = ok 0 := by
  obtain ⟨r, hr, hv⟩ := (text_count W ex hex hex20 db begins text q hh hR hdb (by rintro rfl; simp at hc) hq hno
    (fun _ => False) (fun ki _ => ⟨False.elim, by
      rintro ⟨part, hl, -, rfl⟩
      unfold withoutTop at hc
      rw [List.getElem?_modify] at hc
      cases hx : part[32]? with
      | none => simp [hx] at hc
      | some x =>
        simp only [hx, if_true, Option.map_eq_map, Option.map_some, Option.some.injEq] at hc
        rw [← hc, BitVec.toNat_and] at h128
        have : x.toNat &&& (0x7f : Byte).toNat ≤ 127 := Nat.and_le_right
        omega⟩)).1
  rw [hr]
  have : numMatching db (fun _ => False) = 0 := by simp [numMatching]
  rw [this] at hv
  congr 1
  exact BitVec.eq_of_toNat_eq (by rw [hv]; rfl)

/-- A long ASCII prefix that one of two addresses has. -/
example : ∃ r, (world parityCipher 5 0 0).run 5
    ⟨2, [⟨List.replicate 40 0x61, dayTime 0, 1⟩, ⟨List.replicate 40 0x62, dayTime 0, 1⟩]⟩
    ⟨textInfo true (List.replicate 35 0x61), (List.replicate 35 0x61).flatMap Utils.bits8⟩ true = ok r ∧ r.toNat = 1 := by
  obtain ⟨r, hr, hv⟩ := C21_ascii_partial (world parityCipher 5 0 0) 5 (by omega) (by omega)
    ⟨2, [⟨List.replicate 40 0x61, dayTime 0, 1⟩, ⟨List.replicate 40 0x62, dayTime 0, 1⟩]⟩ true (List.replicate 35 0x61)
    _ exHash_length (world_ready5 _ parityCipher_block _ _) rfl (by decide) (text_query exHash_length (by decide))
    (world_noHits _ _ _ _ _) (Or.inr ⟨by
      intro c hc; rw [List.eq_of_mem_replicate hc]; decide, by
      intro ki hki
      simp only [List.mem_cons, List.not_mem_nil, or_false] at hki
      rcases hki with rfl | rfl <;> (intro c hc; rw [List.eq_of_mem_replicate hc]; decide)⟩)
  refine ⟨r, hr, ?_⟩
  rw [hv]
  unfold numMatching
  dsimp only
  have h1 : AtEnd true (List.replicate 35 (0x61 : Byte)) (List.replicate 40 0x61) :=
    (show List.replicate 35 (0x61 : Byte) <+: List.replicate 40 0x61 by decide)
  have h2 : ¬ AtEnd true (List.replicate 35 (0x61 : Byte)) (List.replicate 40 0x62) :=
    (show ¬ List.replicate 35 (0x61 : Byte) <+: List.replicate 40 0x62 by decide)
  simp only [List.countP_cons, List.countP_nil, h1, h2, decide_true, decide_false, p_val]
  rfl

/-- A text whose 33rd byte is not ASCII. -/
example : (List.replicate 32 (0x61 : Byte) ++ [0xc3, 0xa9])[32]? = some 0xc3 ∧ 128 ≤ (0xc3 : Byte).toNat := by decide

end Verif.Predicate
