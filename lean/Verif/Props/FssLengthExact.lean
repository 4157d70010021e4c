import Verif.Props.Fss

/-! # Exactly where function secret sharing works for long inputs (C20) -/

namespace Verif.Fss
open Res Verif.Field Verif.Field.Spec Verif.Fss.Spec

theorem shares_unique {E : Cipher} {n : Nat} {k0 k1 : Key} {x : List Bool} {v v' : List Nat} {buf : List Byte}
    (env : Env) (he : env.E = E) (hbuf : BufferReady n buf) (h : SharesOf E n k0 k1 x v) (h' : SharesOf E n k0 k1 x v') :
    v = v' := by
  obtain ⟨y0, b0, y1, b1, e0, e1, -, -, hc⟩ := h env env he he buf buf (List.replicate n 0) (List.replicate n 0)
    (by simp) (by simp) hbuf hbuf
  obtain ⟨z0, c0, z1, c1, f0, f1, -, -, hc'⟩ := h' env env he he buf buf (List.replicate n 0) (List.replicate n 0)
    (by simp) (by simp) hbuf hbuf
  rw [e0] at f0
  rw [e1] at f1
  simp only [ok.injEq, Prod.mk.injEq] at f0 f1
  rw [← f0.1, ← f1.1, hc] at hc'
  exact hc'

/-- C20: for points of every length and a value that is not zero, the shares at an input are those of the point function
exactly if clearing bit number 256 of the input neither makes it the point nor stops it from being the point. -/
theorem C20_exact (env : Env) (hE : BlockCipher env.E)
    (buf r1 r2 : List Byte) (a : List Bool) (b : List U32) (h1 : r1.length = 17) (h2 : r2.length = 16)
    (hbl : b.length < 20) (hbuf : BufferReady b.length buf)
    (hb : ∀ v ∈ b, Canonical v) (hno : GenNoHit env.E b.length r1 r2 a) (hb0 : ∃ v ∈ b, v.toNat ≠ 0) :
    ∃ k0 k1 buf', generateTreePF env buf r1 r2 a b = ok (k0, k1, buf') ∧
      ∀ x, x.length = a.length → EvalNoHit env.E b.length k0 x → EvalNoHit env.E b.length k1 x →
        (SharesOf env.E b.length k0 k1 x (point a (b.map BitVec.toNat) x) ↔ (x = a ↔ clear256 x = a)) := by
  obtain ⟨k0, k1, buf', e, H⟩ := C20_bit256_ignored_partial env hE buf r1 r2 a b h1 h2 hbl hbuf hb hno
  refine ⟨k0, k1, buf', e, ?_⟩
  intro x hx hn0 hn1
  have hs : SharesOf env.E b.length k0 k1 x (point a (b.map BitVec.toNat) (clear256 x)) := H x hx hn0 hn1
  obtain ⟨v, hv, hv0⟩ := hb0
  have hdiff : (b.map BitVec.toNat).map (· % p) ≠ (b.map BitVec.toNat).map (fun _ => 0) := by
    intro he
    rw [List.map_map, List.map_map] at he
    have := List.map_inj_left.mp he v hv
    simp only [Function.comp_apply] at this
    have hc : v.toNat < p := hb v hv
    rw [Nat.mod_eq_of_lt hc] at this
    exact hv0 this
  constructor
  · intro hp
    have := shares_unique env rfl hbuf hp hs
    unfold point at this
    constructor
    · intro hxa
      by_contra hne
      rw [if_pos hxa, if_neg hne] at this
      exact hdiff this
    · intro hxa
      by_contra hne
      rw [if_neg hne, if_pos hxa] at this
      exact hdiff this.symm
  · intro hiff
    have : point a (b.map BitVec.toNat) x = point a (b.map BitVec.toNat) (clear256 x) := by
      unfold point
      by_cases hxa : x = a
      · rw [if_pos hxa, if_pos (hiff.mp hxa)]
      · rw [if_neg hxa, if_neg (fun h => hxa (hiff.mpr h))]
    rw [this]
    exact hs

/-- C20: with a cipher whose outputs never convert to the modulus, a value that is not zero is shared correctly at all inputs
exactly if the point has at most 256 bits. -/
theorem C20_lengths (env : Env) (hE : BlockCipher env.E) (hhit : ∀ n s, NoHit env.E n s)
    (buf r1 r2 : List Byte) (a : List Bool) (b : List U32) (h1 : r1.length = 17) (h2 : r2.length = 16)
    (hbl : b.length < 20) (hbuf : BufferReady b.length buf)
    (hb : ∀ v ∈ b, Canonical v) (hb0 : ∃ v ∈ b, v.toNat ≠ 0) :
    ∃ k0 k1 buf', generateTreePF env buf r1 r2 a b = ok (k0, k1, buf') ∧
      ((∀ x, x.length = a.length → SharesOf env.E b.length k0 k1 x (point a (b.map BitVec.toNat) x)) ↔
        a.length ≤ 256) := by
  obtain ⟨k0, k1, buf', e, H⟩ := C20_exact env hE buf r1 r2 a b h1 h2 hbl hbuf hb (fun g _ => ⟨hhit _ _, hhit _ _⟩) hb0
  refine ⟨k0, k1, buf', e, ?_⟩
  have H : ∀ x : List Bool, x.length = a.length →
      (SharesOf env.E b.length k0 k1 x (point a (b.map BitVec.toNat) x) ↔ (x = a ↔ clear256 x = a)) :=
    fun x hx => H x hx (fun _ _ _ => hhit _ _) (fun _ _ _ => hhit _ _)
  constructor
  · intro hall
    by_contra hlong
    have hl : 256 < a.length := by omega
    cases hbit : a[256]'hl with
    | true =>
      have := ((H a rfl).mp (hall a rfl)).mp rfl
      have h3 : (clear256 a)[256]? = some false := List.getElem?_set_self hl
      rw [this, List.getElem?_eq_getElem hl, hbit] at h3
      cases h3
    | false =>
      have hx : (a.set 256 true).length = a.length := by simp
      have h3 : clear256 (a.set 256 true) = a := by
        unfold clear256
        rw [List.set_set, ← hbit, List.set_getElem_self]
      have h4 := ((H _ hx).mp (hall _ hx)).mpr h3
      have h5 : (a.set 256 true)[256]? = some true := List.getElem?_set_self hl
      rw [h4, List.getElem?_eq_getElem hl, hbit] at h5
      cases h5
  · intro hs x hx
    refine (H x hx).mpr ?_
    have : clear256 x = x := List.set_eq_of_length_le (by omega)
    rw [this]

/-- A point of 300 bits and one of 200 meet the hypotheses. -/
example : ∃ k0 k1 buf', generateTreePF ⟨parityCipher, fun _ => 0, 0⟩ (initFss 1) (List.replicate 17 3)
      (List.replicate 16 4) (List.replicate 300 false) [1] = ok (k0, k1, buf') ∧
    ¬ ∀ x, x.length = (List.replicate 300 false).length →
      SharesOf parityCipher 1 k0 k1 x (point (List.replicate 300 false) [1] x) := by
  obtain ⟨k0, k1, buf', e, H⟩ := C20_lengths ⟨parityCipher, fun _ => 0, 0⟩ parityCipher_block parityCipher_noHit
    (initFss 1) (List.replicate 17 3) (List.replicate 16 4) (List.replicate 300 false) [1]
    (by simp) (by simp) (by simp) (initFss_ok 1) (by simp [Canonical, p]) ⟨1, by simp, by decide⟩
  refine ⟨k0, k1, buf', e, ?_⟩
  intro h
  have := H.mp h
  rw [List.length_replicate] at this
  omega

example : ∃ k0 k1 buf', generateTreePF ⟨parityCipher, fun _ => 0, 0⟩ (initFss 1) (List.replicate 17 3)
      (List.replicate 16 4) (List.replicate 200 true) [1] = ok (k0, k1, buf') ∧
    ∀ x, x.length = (List.replicate 200 true).length →
      SharesOf parityCipher 1 k0 k1 x (point (List.replicate 200 true) [1] x) := by
  obtain ⟨k0, k1, buf', e, H⟩ := C20_lengths ⟨parityCipher, fun _ => 0, 0⟩ parityCipher_block parityCipher_noHit
    (initFss 1) (List.replicate 17 3) (List.replicate 16 4) (List.replicate 200 true) [1]
    (by simp) (by simp) (by simp) (initFss_ok 1) (by simp [Canonical, p]) ⟨1, by simp, by decide⟩
  exact ⟨k0, k1, buf', e, H.mpr (by rw [List.length_replicate]; omega)⟩

end Verif.Fss
