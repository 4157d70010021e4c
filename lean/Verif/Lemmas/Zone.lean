import Verif.Spec.Zone
import Verif.Props.Predicate

/-! # Lemmas about times in zones -/

namespace Verif.Zone
open Res Verif.Query Verif.Predicate Verif.Predicate.Spec Verif.Zone.Spec
set_option linter.unusedSimpArgs false

@[simp] theorem marshal_length (u m : Int) : (marshal u m).length = 15 := by simp [marshal]

/-- Two times with the same encoding have the same minutes, as 16-bit numbers. -/
theorem marshal_minutes {u u' m m' : Int} (h : marshal u m = marshal u' m') :
    (BitVec.ofInt 16 m).toNat = (BitVec.ofInt 16 m').toNat := by
  have h1 := (List.append_inj h (by simp)).2
  have h2 := congrArg ofBE h1
  rw [ofBE_beBytes, ofBE_beBytes] at h2
  have a := (BitVec.ofInt 16 m).isLt
  have b := (BitVec.ofInt 16 m').isLt
  rwa [Nat.mod_eq_of_lt (by omega), Nat.mod_eq_of_lt (by omega)] at h2

/-- A time in a zone is never encoded as a time in `UTC`. -/
theorem local_ne_midnight (z : Tz) (t d : Int) (b : List Byte) (h : (local_ z t).bin = ok b) : (midnight d).bin ≠ ok b := by
  intro hm
  have hz := z.small t
  unfold local_ at h
  dsimp only at h
  split at h
  · simp at h
  split at h
  · simp at h
  · rename_i h1 h2
    simp only [ok.injEq] at h
    simp only [midnight, ok.injEq] at hm
    have := marshal_minutes (hm.trans h.symm)
    simp only [BitVec.toNat_ofInt] at this
    omega

/-- The encoding of a time in a zone, if there is one, has the length of all encodings. -/
theorem local_length {z : Tz} {t : Int} {b : List Byte} (h : (local_ z t).bin = ok b) : b.length = 15 := by
  unfold local_ at h
  dsimp only at h
  split at h
  · simp at h
  split at h
  · simp at h
  · simp only [ok.injEq] at h
    rw [← h]; simp

theorem epoch_val : startOfYear 1970 = 719528 := by decide

theorem day_le (d u : Int) : d ≤ epoch + u / 86400 ↔ instant d ≤ u := by
  unfold instant epoch
  rw [epoch_val]
  omega

/-- The year of a time in a zone is the year that its clocks show. -/
theorem local_year (z : Tz) (t y : Int) : (local_ z t).year = y ↔
    instant (startOfYear y) ≤ t + z.offset t ∧ t + z.offset t < instant (startOfYear (y + 1)) := by
  rw [C27_year_of_day]
  have h : (local_ z t).day = epoch + (t + z.offset t) / 86400 := rfl
  rw [h, day_le, ← not_le, day_le, not_le]

theorem createdIn_exists (k : RawKey) : ∃ y, CreatedIn k y := by
  refine ⟨yearOfDay (epoch + k.created.toNat / 86400), ?_⟩
  have h := yearOfDay_bounds (epoch + k.created.toNat / 86400)
  generalize yearOfDay (epoch + (k.created.toNat : Int) / 86400) = y at h
  rw [day_le, ← not_le, day_le, not_le] at h
  exact h

/-- Where the zone does not matter, the year shown is the year in UTC. -/
theorem local_year_same {z : Tz} {k : RawKey} (h : SameYear z k) (y : Int) :
    (local_ z k.created.toNat).year = y ↔ CreatedIn k y := by
  obtain ⟨y', hy'⟩ := createdIn_exists k
  have e : (local_ z k.created.toNat).year = y' := (local_year _ _ _).2 (h y' hy')
  constructor
  · intro hy
    rw [← hy, e]; exact hy'
  · intro hy
    exact (local_year _ _ _).2 (h y hy)

/-- The years of all keys fit in 32 bits. -/
theorem local_year_range (z : Tz) (k : RawKey) :
    0 ≤ (local_ z k.created.toNat).year ∧ (local_ z k.created.toNat).year < 2 ^ 32 := by
  have hk := k.created.isLt
  have hz := z.small k.created.toNat
  have h := yearOfDay_bounds (local_ z k.created.toNat).day
  have hd : (local_ z k.created.toNat).day = epoch + (k.created.toNat + z.offset k.created.toNat) / 86400 := rfl
  unfold Time.year
  rw [hd] at h ⊢
  generalize z.offset (k.created.toNat : Int) = o at *
  generalize k.created.toNat = c at *
  generalize yearOfDay (epoch + ((c : Int) + o) / 86400) = y at *
  unfold epoch at h
  rw [epoch_val] at h
  unfold startOfYear at h
  omega

/-- The servers' answers depend on the keys through their selectors only. -/
theorem serve_congr (W : World) (ex : Nat) (sn : Byte) (z z' : Tz) (ks : List RawKey) (m : Msg)
    (ha : m.info.avg = false) (hs : m.info.sum = false) (ht : m.info.and = true ∨ m.info.target ≤ 2)
    (h : ∀ k ∈ ks, keyId W.hash m.info (keyInfo z k) = keyId W.hash m.info (keyInfo z' k)) :
    W.serve sn ex (load z ks) m = W.serve sn ex (load z' ks) m := by
  have hloop : ∀ env sn s, countLoop env sn (load z ks) m.key (keyId W.hash m.info) s =
      countLoop env sn (load z' ks) m.key (keyId W.hash m.info) s := by
    intro env sn s
    unfold countLoop
    have e1 : (load z ks).numColumns = ks.length := rfl
    have e2 : (load z' ks).numColumns = ks.length := rfl
    rw [e1, e2]
    apply forLoop_congr
    intro i t hi
    have i1 : idx (load z ks).keys i = ok (keyInfo z ks[i]) := by
      rw [idx_of_lt (by simpa [load] using hi)]; simp [load]
    have i2 : idx (load z' ks).keys i = ok (keyInfo z' ks[i]) := by
      rw [idx_of_lt (by simpa [load] using hi)]; simp [load]
    rw [i1, i2]
    simp only [ok_bind]
    rw [h _ (List.getElem_mem hi)]
  unfold World.serve
  simp only [answer_count ha hs ht, hloop]

/-- Two zones in which all selectors agree are as good as one. -/
theorem run_congr (W : World) (ex : Nat) (z z' : Tz) (ks : List RawKey) (q : ClientFSS)
    (ha : q.info.avg = false) (hs : q.info.sum = false) (ht : q.info.and = true ∨ q.info.target ≤ 2)
    (h : ∀ k ∈ ks, keyId W.hash q.info (keyInfo z k) = keyId W.hash q.info (keyInfo z' k)) :
    Zone.run W ex (load z ks) (load z' ks) q = W.run ex (load z ks) q true := by
  unfold Zone.run World.run
  cases hq : query W.env W.fuel ex W.rnd W.buf W.r1 W.r2 q 2 with
  | err m => rfl
  | crash m => rfl
  | ok v =>
    obtain ⟨ms, st, rnd, buf⟩ := v
    unfold query at hq
    rw [if_neg (by simp), bind_eq_ok] at hq
    obtain ⟨⟨st', rnd'⟩, -, hq⟩ := hq
    simp only [bind_eq_ok] at hq
    obtain ⟨⟨k0, k1, b⟩, -, hq⟩ := hq
    simp only [ok.injEq, Prod.mk.injEq] at hq
    obtain ⟨rfl, -, -, -⟩ := hq
    simp only [ok_bind, if_true]
    rw [idx_of_lt (by simp), idx_of_lt (by simp)]
    simp only [ok_bind, List.getElem_cons_zero, List.getElem_cons_succ]
    rw [serve_congr W ex 1 z' z ks ⟨q.info, k1⟩ ha hs ht (fun k hk => (h k hk).symm)]

theorem keyId_email (hash : List Byte → List Byte) (i : Info) (z z' : Tz) (k : RawKey) (h : i.and = false)
    (ht : i.target ≠ 1) (ht2 : i.target ≤ 2) : keyId hash i (keyInfo z k) = keyId hash i (keyInfo z' k) := by
  unfold keyId
  simp only [h, Bool.false_and, Bool.false_eq_true, if_false]
  have : i.target = 0 ∨ i.target = 2 := by omega
  rcases this with e | e <;> simp [e, selEmail, selAlgo, keyInfo]

theorem keyId_year (hash : List Byte → List Byte) (i : Info) (z z' : Tz) (k : RawKey) (h : i.and = true) (ha : i.avg = false)
    (hy : (local_ z k.created.toNat).year = (local_ z' k.created.toNat).year) :
    keyId hash i (keyInfo z k) = keyId hash i (keyInfo z' k) := by
  unfold keyId
  simp only [h, ha, Bool.not_false, Bool.and_self, if_true]
  unfold selAnd idForYearCreationTime
  have e : (keyInfo z k).creation.year = (keyInfo z' k).creation.year := hy
  rw [e]
  rfl

theorem keyId_instant (hash : List Byte → List Byte) (i : Info) (z z' : Tz) (k : RawKey) (ho : z.offset k.created.toNat = z'.offset k.created.toNat) :
    keyId hash i (keyInfo z k) = keyId hash i (keyInfo z' k) := by
  have : keyInfo z k = keyInfo z' k := by
    unfold keyInfo local_
    rw [ho]
  rw [this]

theorem keyInfo_mem {z : Tz} {ks : List RawKey} {ki : KeyInfo} : ki ∈ (load z ks).keys ↔ ∃ k ∈ ks, keyInfo z k = ki := by
  simp [load]

/-- A loop that ends well has run its body well for each index. -/
theorem forLoop_each {σ : Type _} {n : Nat} {f : Nat → σ → Res σ} {s t : σ} (h : forLoop n f s = ok t) (i : Nat) (hi : i < n) :
    ∃ s' t', f i s' = ok t' := by
  induction n generalizing t with
  | zero => omega
  | succ n ih =>
    rw [forLoop_succ, bind_eq_ok] at h
    obtain ⟨u, hu, ht⟩ := h
    by_cases e : i = n
    · exact ⟨u, t, by rw [e]; exact ht⟩
    · exact ih hu (by omega)

open Classical in
theorem number_load (z : Tz) (ks : List RawKey) (P : KeyInfo → Prop) :
    numMatching (load z ks) P = number ks (fun k => P (keyInfo z k)) := by
  unfold numMatching number load
  simp only [List.countP_map]
  rfl

theorem number_congr {ks : List RawKey} {P Q : RawKey → Prop} (h : ∀ k ∈ ks, (P k ↔ Q k)) : number ks P = number ks Q := by
  unfold number
  apply List.countP_congr
  intro k hk
  simp [h k hk]

end Verif.Zone
