import Verif.Spec.Object
import Verif.Lemmas.FssLeak
import Verif.Lemmas.FssFinal

/-! # Lemmas about client objects -/

namespace Verif.Object
open Res
variable {O Q M A R : Type}

theorem after_append (c : Client O Q M A R) (l l' : List (Call Q A)) : c.after (l ++ l') = l'.foldl c.step (c.after l) := by
  unfold Client.after
  rw [List.foldl_append]

theorem after_inv (c : Client O Q M A R) (I : O → Prop) (h0 : I c.new) (hq : ∀ o q, I o → I (c.query o q).1)
    (hr : ∀ o a, I o → I (c.reconstruct o a).1) (l : List (Call Q A)) : I (c.after l) := by
  unfold Client.after
  generalize c.new = o at h0
  induction l generalizing o with
  | nil => exact h0
  | cons x l ih =>
    apply ih
    cases x with
    | query q => exact hq o q h0
    | reconstruct a => exact hr o a h0

theorem foldl_reconstruct (c : Client O Q M A R) (hr : ∀ o a, (c.reconstruct o a).1 = o) (l : List A) (o : O) :
    (l.map Call.reconstruct).foldl c.step o = o := by
  induction l with
  | nil => rfl
  | cons a l ih =>
    rw [List.map_cons, List.foldl_cons]
    show List.foldl c.step (c.reconstruct o a).1 _ = o
    rw [hr, ih]

/-- If reconstruction leaves the object alone and a query that succeeds leaves the same object whatever was there
before (as far as `W` and the invariant `I` go), the last query counts. -/
theorem lastQueryCounts (c : Client O Q M A R) (W : Q → Prop) (I : O → Prop) (h0 : I c.new)
    (hI : ∀ o q, I o → I (c.query o q).1) (hr : ∀ o a, (c.reconstruct o a).1 = o)
    (hq : ∀ o q m, I o → W q → (c.query o q).2 = ok m → (c.query o q).1 = (c.query c.new q).1) : LastQueryCounts c W := by
  intro past q m since a hw h
  have hi := after_inv c I h0 hI (fun o a ho => by rw [hr]; exact ho) past
  rw [after_append, List.foldl_cons, foldl_reconstruct c hr]
  show (c.reconstruct (c.query (c.after past) q).1 a).2 = (c.reconstruct (c.query c.new q).1 a).2
  rw [hq _ q m hi hw h]

theorem bind_congr_ok {α β : Type} {x : Res α} {f g : α → Res β} (h : ∀ a, x = ok a → f a = g a) : (x >>= f) = (x >>= g) := by
  cases x with
  | ok a => exact h a rfl
  | err m => rfl
  | crash m => rfl

theorem sameMessages (c : Client O Q M A R) (I : O → Prop) (h0 : I c.new) (hI : ∀ o q, I o → I (c.query o q).1)
    (hr : ∀ o a, (c.reconstruct o a).1 = o) (hq : ∀ o q, I o → (c.query o q).2 = (c.query c.new q).2) : SameMessages c := by
  intro past q
  exact hq _ q (after_inv c I h0 hI (fun o a ho => by rw [hr]; exact ho) past)

/-! ### The keys do not depend on what the buffer held -/

section
open Verif.Fss Verif.Field Verif.Fss.Spec

theorem convertBlock_same {env : Env} (hE : BlockCipher env.E) {n : Nat} {b b' s : List Byte} {out : List U32}
    (hb : BufferReady n b) (hb' : BufferReady n b') (hs : s.length = 16) (hout : out.length = n) (hn : n < 20) :
    convertBlock env b s out = convertBlock env b' s out := by
  subst hout
  unfold convertBlock
  rw [prf_eq hE hs (by omega) (by rw [hb.1]; omega), hb.2, prf_eq hE hs (by omega) (by rw [hb'.1]; omega), hb'.2]

theorem copy16 {x s : List Byte} (h : copyAt (List.replicate 16 (0 : Byte)) 0 x = ok s) : s.length = 16 := by
  unfold copyAt at h
  rw [if_pos (by omega)] at h
  simp only [ok.injEq] at h
  subst h
  simp
  omega

theorem genStep_length {E : Nat → List Byte → List Byte} {a : Bool} {s0 s1 : List Byte} {t0 t1 : Byte}
    {r : List Byte × List Byte × List Byte × Byte × Byte} (h : genStep E a s0 s1 t0 t1 = ok r) :
    r.2.1.length = 16 ∧ r.2.2.1.length = 16 := by
  unfold genStep at h
  obtain ⟨o0, -, h⟩ := bind_eq_ok.mp h
  obtain ⟨p0, -, h⟩ := bind_eq_ok.mp h
  obtain ⟨o1, -, h⟩ := bind_eq_ok.mp h
  obtain ⟨p1, -, h⟩ := bind_eq_ok.mp h
  obtain ⟨x1, -, h⟩ := bind_eq_ok.mp h
  obtain ⟨x2, -, h⟩ := bind_eq_ok.mp h
  obtain ⟨x3, -, h⟩ := bind_eq_ok.mp h
  obtain ⟨x4, -, h⟩ := bind_eq_ok.mp h
  dsimp only at h
  obtain ⟨l0, e1, h⟩ := bind_eq_ok.mp h
  obtain ⟨l1, e2, h⟩ := bind_eq_ok.mp h
  obtain ⟨k0, e3, h⟩ := bind_eq_ok.mp h
  obtain ⟨k1, e4, h⟩ := bind_eq_ok.mp h
  obtain ⟨y0, -, h⟩ := bind_eq_ok.mp h
  obtain ⟨y1, -, h⟩ := bind_eq_ok.mp h
  have e1 := slice_length e1
  have e2 := slice_length e2
  have e3 := slice_length e3
  have e4 := slice_length e4
  simp only [ok.injEq] at h
  subst h
  simp only [List.length_zipWith, List.length_map]
  omega

theorem genLoop_length {E : Nat → List Byte → List Byte} {a : List Bool} {s0 s1 : List Byte} {t0 t1 : Byte} {g : GenState}
    (h0 : s0.length = 16) (h1 : s1.length = 16) (h : genLoop E a s0 s1 t0 t1 = ok g) :
    g.s0.length = 16 ∧ g.s1.length = 16 := by
  unfold genLoop at h
  refine forLoop_inv_ok (P := fun _ (g : GenState) => g.s0.length = 16 ∧ g.s1.length = 16) ⟨h0, h1⟩ ?_ h
  intro i g g' _ _ hb
  obtain ⟨ai, -, hb⟩ := bind_eq_ok.mp hb
  obtain ⟨r, hr, hb⟩ := bind_eq_ok.mp hb
  obtain ⟨cw, s0', s1', t0', t1'⟩ := r
  have := genStep_length hr
  simp only [ok.injEq] at hb
  subst hb
  exact this

/-- Key generation does the same with every buffer that a new instance or a finished operation leaves. -/
theorem generate_same {env : Env} (hE : BlockCipher env.E) {n : Nat} {b b' r1 r2 : List Byte} {a : List Bool} {v : List U32}
    (hb : BufferReady n b) (hb' : BufferReady n b') (hv : v.length = n) (hn : n < 20) :
    generateTreePF env b r1 r2 a v = generateTreePF env b' r1 r2 a v := by
  unfold generateTreePF
  refine bind_congr_ok fun x _ => ?_
  refine bind_congr_ok fun tb _ => ?_
  dsimp only
  refine bind_congr_ok fun s0 h0 => ?_
  refine bind_congr_ok fun s1 h1 => ?_
  refine bind_congr_ok fun g hg => ?_
  obtain ⟨l0, l1⟩ := genLoop_length (copy16 h0) (copy16 h1) hg
  rw [convertBlock_same hE hb hb' l0 (by simpa using hv) hn]

theorem generate_ready {env : Env} (hE : BlockCipher env.E) {n : Nat} {b r1 r2 : List Byte} {a : List Bool} {v : List U32}
    (hb : BufferReady n b) (hv : v.length = n) {k0 k1 : Key} {b' : List Byte}
    (h : generateTreePF env b r1 r2 a v = ok (k0, k1, b')) : BufferReady n b' := by
  unfold generateTreePF at h
  obtain ⟨x, -, h⟩ := bind_eq_ok.mp h
  obtain ⟨tb, -, h⟩ := bind_eq_ok.mp h
  dsimp only at h
  obtain ⟨s0, h0, h⟩ := bind_eq_ok.mp h
  obtain ⟨s1, h1, h⟩ := bind_eq_ok.mp h
  obtain ⟨g, hg, h⟩ := bind_eq_ok.mp h
  obtain ⟨l0, l1⟩ := genLoop_length (copy16 h0) (copy16 h1) hg
  obtain ⟨⟨c0, b0⟩, hc0, h⟩ := bind_eq_ok.mp h
  obtain ⟨⟨c1, b1⟩, hc1, h⟩ := bind_eq_ok.mp h
  obtain ⟨f, -, h⟩ := bind_eq_ok.mp h
  simp only [ok.injEq, Prod.mk.injEq] at h
  obtain ⟨-, -, rfl⟩ := h
  have r0 := (convertBlock_tail hE hb l0 (by simpa using hv) hc0).2.1
  exact (convertBlock_tail hE r0 l1 (by simpa using hv) hc1).2.1

end

end Verif.Object
