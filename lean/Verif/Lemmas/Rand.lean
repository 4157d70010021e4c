import Verif.Spec.Rand
import Verif.Lemmas.Loop

namespace Verif.Rand
open Res Spec

@[simp] theorem keyStream_length (ks : Nat → Byte) (pos n : Nat) : (keyStream ks pos n).length = n := by
  simp [keyStream]

theorem zipWith_xor_zero (l : List Byte) (n : Nat) (h : n = l.length) :
    List.zipWith (· ^^^ ·) (List.replicate n (0 : Byte)) l = l := by
  subst h
  apply List.ext_getElem (by simp)
  intro i h1 h2
  simp

theorem keyStream_take (ks : Nat → Byte) (pos n m : Nat) (h : m ≤ n) :
    (keyStream ks pos n).take m = keyStream ks pos m := by
  unfold keyStream
  rw [← List.map_take, List.take_range, Nat.min_eq_left h]

theorem read_zero (g : Prg) (n : Nat) :
    ∃ g', g.read (List.replicate n 0) = (keyStream g.ks g.pos n, g') ∧ g'.ks = g.ks ∧
      g.pos + n ≤ g'.pos := by
  unfold Prg.read xorKeyStream
  by_cases h : n < 16
  · simp only [List.length_replicate, h, if_true]
    refine ⟨⟨g.ks, g.pos + 16⟩, ?_, rfl, ?_⟩
    · rw [zipWith_xor_zero _ _ (by simp), keyStream_take _ _ _ _ (by omega)]
      simp [show n - 16 = 0 by omega]
    · simp; omega
  · simp only [List.length_replicate, h, if_false]
    refine ⟨⟨g.ks, g.pos + n⟩, ?_, rfl, ?_⟩
    · rw [zipWith_xor_zero _ _ (by simp)]
    · simp

theorem readAll_zero (ns : List Nat) (g : Prg) :
    ∃ segs : List (Nat × Nat), NonOverlapping segs ∧ (∀ s ∈ segs, g.pos ≤ s.1) ∧
      segs.map (·.2) = ns ∧
      (readAll (ns.map (fun n => List.replicate n 0)) g).1
        = segs.map (fun s => keyStream g.ks s.1 s.2) := by
  induction ns generalizing g with
  | nil => exact ⟨[], by simp [NonOverlapping], by simp, rfl, rfl⟩
  | cons n ns ih =>
    obtain ⟨g', h1, h2, h3⟩ := read_zero g n
    obtain ⟨segs, d, lo, le, ho⟩ := ih g'
    refine ⟨(g.pos, n) :: segs, ?_, ?_, by simp [le], ?_⟩
    · refine List.Pairwise.cons ?_ d
      intro s hs
      have := lo s hs
      simp; omega
    · intro s hs
      rcases List.mem_cons.1 hs with rfl | hs
      · simp
      · have := lo s hs
        omega
    · simp only [List.map_cons, readAll, h1, ho, h2]

/-- The state of a buffered generator that has served `n` bytes. -/
def Inv (ks : Nat → Byte) (size n : Nat) (b : Buf) : Prop :=
  b.src.ks = ks ∧ b.buf.length = size ∧
    ((b.src.pos = 0 ∧ n = 0 ∧ b.r = 0 ∧ b.w = 0 ∧ b.buf = List.replicate size 0) ∨
     (∃ f, b.src.pos = size * (f + 1) ∧ b.w = size ∧ b.r ≤ size ∧ n = size * f + b.r ∧
        b.buf = (List.range size).map (refill ks size f)))

theorem inv_new (ks : Nat → Byte) (size : Nat) : Inv ks size 0 (newBuf size ⟨ks, 0⟩) := by
  refine ⟨rfl, by simp [newBuf], Or.inl ⟨rfl, rfl, rfl, rfl, rfl⟩⟩

theorem served_at (ks : Nat → Byte) (size f o : Nat) (h : o < size) :
    served ks size (size * f + o) = refill ks size f o := by
  unfold served
  have h1 : (size * f + o) / size = f := by
    rw [Nat.mul_add_div (by omega), Nat.div_eq_of_lt h, Nat.add_zero]
  have h2 : (size * f + o) % size = o := by
    rw [Nat.mul_add_mod, Nat.mod_eq_of_lt h]
  rw [h1, h2]

/-- Refilling when everything buffered was served. -/
theorem refill_inv {ks : Nat → Byte} {size n : Nat} {b : Buf} (hsz : 16 ≤ size) (h : Inv ks size n b)
    (he : b.r = b.w) :
    ∃ a src', b.src.read b.buf = (a, src') ∧ Inv ks size n { buf := a, r := 0, w := a.length, src := src' }
      ∧ a.length = size := by
  obtain ⟨hks, hlen, hc⟩ := h
  unfold Prg.read xorKeyStream
  rw [if_neg (by omega)]
  refine ⟨_, _, rfl, ?_, by simp [hlen]⟩
  refine ⟨hks, by simp [hlen], Or.inr ?_⟩
  rcases hc with ⟨hp, hn, hr, hw, hb⟩ | ⟨f, hp, hw, hr, hn, hb⟩
  · refine ⟨0, by simp [hp, hlen], by simp [hlen], by simp, by simp [hn], ?_⟩
    rw [hb, zipWith_xor_zero _ _ (by simp)]
    simp [keyStream, hks, hp]
    intro a _
    rfl
  · refine ⟨f + 1, ?_, by simp [hlen], by simp, ?_, ?_⟩
    · simp only [hp, hlen]; ring
    · simp only [hn, he, hw]; ring
    · simp only
      rw [hlen, hp, hks, hb]
      apply List.ext_getElem (by simp)
      intro i h1 h2
      simp [keyStream, refill]

/-- One read of fewer than `size` bytes. -/
theorem buf_read {ks : Nat → Byte} {size n : Nat} {b : Buf} (hsz : 16 ≤ size) (h : Inv ks size n b)
    (p : List Byte) (hp0 : 0 < p.length) (hp : p.length < size) :
    ∃ m b', b.read p = ((List.range m).map (fun j => served ks size (n + j)) ++ p.drop m, m, b') ∧
      1 ≤ m ∧ m ≤ p.length ∧ Inv ks size (n + m) b' := by
  have main : ∀ c : Buf, Inv ks size n c → c.r < c.w →
      ∃ m b', ((((c.buf.take c.w).drop c.r).take (min p.length ((c.buf.take c.w).drop c.r).length)
          ++ p.drop (min p.length ((c.buf.take c.w).drop c.r).length),
          min p.length ((c.buf.take c.w).drop c.r).length,
          { c with r := c.r + min p.length ((c.buf.take c.w).drop c.r).length }) :
            List Byte × Nat × Buf)
        = ((List.range m).map (fun j => served ks size (n + j)) ++ p.drop m, m, b') ∧
        1 ≤ m ∧ m ≤ p.length ∧ Inv ks size (n + m) b' := by
    intro c hc hlt
    obtain ⟨hks, hlen, hc⟩ := hc
    rcases hc with ⟨-, -, hr, hw, -⟩ | ⟨f, hp', hw, hr, hn, hb⟩
    · omega
    · have hal : ((c.buf.take c.w).drop c.r).length = size - c.r := by simp [hlen, hw]
      rw [hal]
      refine ⟨min p.length (size - c.r), { c with r := c.r + min p.length (size - c.r) }, ?_, ?_, ?_, ?_⟩
      · congr 2
        apply List.ext_getElem
        · simp [hlen, hw]
        · intro i h1 h2
          simp only [List.length_map, List.length_range] at h2
          simp only [List.getElem_take, List.getElem_drop, List.getElem_map, List.getElem_range]
          have : n + i = size * f + (c.r + i) := by omega
          rw [this, served_at _ _ _ _ (by omega)]
          simp only [hb, List.getElem_map, List.getElem_range]
      · omega
      · omega
      · refine ⟨hks, hlen, Or.inr ⟨f, hp', hw, ?_, ?_, hb⟩⟩
        · simp only; omega
        · simp only; omega
  unfold Buf.read
  rw [if_neg (by omega)]
  have hlen := h.2.1
  rw [if_neg (by omega)]
  by_cases he : b.r = b.w
  · obtain ⟨a, src', e1, e2, e3⟩ := refill_inv hsz h he
    simp only [he, if_true, e1]
    exact main _ e2 (by simp only [e3]; omega)
  · simp only [he, if_false]
    refine main b h ?_
    rcases h.2.2 with ⟨-, -, hr, hw, -⟩ | ⟨f, hp', hw, hr, hn, hb⟩ <;> omega

theorem fill8_spec {ks : Nat → Byte} {size : Nat} (hsz : 16 ≤ size) (n0 : Nat) :
    ∀ (fuel read : Nat) (b : Buf) (buf : List Byte), read ≤ 8 → 8 ≤ read + fuel → buf.length = 8 →
      buf.take read = (List.range read).map (fun j => served ks size (n0 + j)) →
      Inv ks size (n0 + read) b →
      ∃ b', fill8 fuel buf read b = some ((List.range 8).map (fun j => served ks size (n0 + j)), b') ∧
        Inv ks size (n0 + 8) b' := by
  intro fuel
  induction fuel with
  | zero =>
    intro read b buf h1 h2 hl hb hi
    have : read = 8 := by omega
    subst this
    unfold fill8
    rw [if_neg (by omega)]
    rw [List.take_of_length_le (by omega)] at hb
    exact ⟨b, by rw [hb], hi⟩
  | succ fuel ih =>
    intro read b buf h1 h2 hl hb hi
    unfold fill8
    by_cases hr : read < 8
    · rw [if_pos hr]
      obtain ⟨m, b', e, hm1, hm2, hi'⟩ := buf_read hsz hi (buf.drop read) (by simp; omega)
        (by simp; omega)
      simp only [e]
      have hm3 : read + m ≤ 8 := by
        simp at hm2; omega
      refine ih (read + m) b' _ hm3 (by omega) ?_ ?_ (by rwa [Nat.add_assoc] at hi')
      · simp; omega
      · rw [hb, List.range_add, List.map_append, List.take_append,
          List.take_of_length_le (by simp), List.take_append]
        simp only [List.length_map, List.length_range, List.map_map]
        rw [List.take_of_length_le (by simp)]
        have : read + m - read - m = 0 := by omega
        rw [this, List.take_zero, List.append_nil]
        congr 2
        funext j
        simp [Nat.add_assoc]
    · have : read = 8 := by omega
      subst this
      rw [if_neg hr]
      rw [List.take_of_length_le (by omega)] at hb
      exact ⟨b, by rw [hb], hi⟩

theorem uint64_spec {ks : Nat → Byte} {size n : Nat} (hsz : 16 ≤ size) {b : Buf}
    (h : Inv ks size n b) :
    ∃ b', uint64 8 b = some (ofLE ((List.range 8).map (fun j => served ks size (n + j))), b') ∧
      Inv ks size (n + 8) b' := by
  obtain ⟨b', h1, h2⟩ := fill8_spec hsz n 8 0 b (List.replicate 8 0) (by omega) (by omega) (by simp)
    (by simp) h
  exact ⟨b', by unfold uint64; rw [h1]; rfl, h2⟩

theorem uint64s_spec {ks : Nat → Byte} {size : Nat} (hsz : 16 ≤ size) (k : Nat) :
    ∀ (n : Nat) (b : Buf), Inv ks size n b →
    ∃ b', uint64s 8 k b = some ((List.range k).map (fun i =>
      ofLE ((List.range 8).map (fun j => served ks size (n + 8 * i + j)))), b') ∧
      Inv ks size (n + 8 * k) b' := by
  induction k with
  | zero => intro n b h; exact ⟨b, rfl, h⟩
  | succ k ih =>
    intro n b h
    obtain ⟨b1, e1, h1⟩ := uint64_spec hsz h
    obtain ⟨b2, e2, h2⟩ := ih (n + 8) b1 h1
    refine ⟨b2, ?_, ?_⟩
    · simp only [uint64s, e1, e2, Option.bind_eq_bind, Option.bind_some]
      rw [List.range_succ_eq_map (n := k), List.map_cons, List.map_map]
      congr 3
      apply List.map_congr_left
      intro i _
      simp only [Function.comp]
      congr 2
      funext j
      congr 1
      omega
    · have : n + 8 * (k + 1) = n + 8 + 8 * k := by ring
      rw [this]; exact h2

end Verif.Rand
