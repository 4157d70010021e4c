import Verif.Model.Ecc
import Verif.Spec.Ecc
import Verif.Lemmas.Loop

namespace Verif.Ecc
open Res

theorem foldl_count (d : U32) (l : List U32) (c : Nat) :
    l.foldl (fun count x => if x = d then count + 1 else count) c = c + l.count d := by
  induction l generalizing c with
  | nil => simp
  | cons a l ih =>
    rw [List.foldl_cons, ih, List.count_cons]
    by_cases h : a = d <;> simp [h]; omega

theorem votes_ok (d : U32) (inp : List U32) :
    ∃ v, forLoop (inp.length - 1) (fun i (votes : Int) => do
      let x ← idx inp (i + 1)
      ok (if x = d then votes + 1 else votes - 1)) 1 = ok v := by
  obtain ⟨v, h, -⟩ := forLoop_inv (n := inp.length - 1) (s := (1 : Int))
    (body := fun i (votes : Int) => do
      let x ← idx inp (i + 1)
      ok (if x = d then votes + 1 else votes - 1)) (fun _ _ => True) trivial (by
      intro i t hi _
      have : i + 1 < inp.length := by omega
      exact ⟨_, by rw [idx_of_lt this]; rfl, trivial⟩)
  exact ⟨v, h⟩

/-- Closed form of `decode`. -/
theorem decode_eq (a : U32) (l : List U32) :
    decode (a :: l) = if (a :: l).count a > (a :: l).length / 2 then ok a
      else err "impossible to find a decoded word" := by
  unfold decode
  obtain ⟨v, hv⟩ := votes_ok a (a :: l)
  have h0 : idx (a :: l) 0 = ok a := rfl
  rw [h0, ok_bind, hv, ok_bind, forLoop_idx_foldl, ok_bind, foldl_count]
  simp

theorem decode_nil : decode [] = crash "index out of range" := rfl

theorem encode_eq (t : Nat) (x : U32) : encode t x = ok (List.replicate (2 * t + 1) x) := by
  unfold encode
  simp only [List.length_replicate]
  rw [forLoop_set_all (2 * t + 1) (fun _ => x) _ _ (by intros; rfl) (by simp)]
  simp

end Verif.Ecc
