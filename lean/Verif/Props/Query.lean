import Verif.Lemmas.Query
import Verif.Lemmas.Field

/-! # C26, C27: selectors and years (lib/query/query.go) -/

namespace Verif.Query
open Res Verif.Utils

/-- C26: with `FromStart = n > 0` an e-mail has a selector iff it has at least `n` bytes, and two e-mails that
have one get the same selector iff they share a prefix of length `n`. -/
theorem C26_prefix (hash : List Byte → List Byte) (i : Info) (n : Nat) (hn : 0 < n) (hi : i.fromStart = n)
    (e e' : List Byte) :
    (idForEmail hash i e = ok none ↔ e.length < n) ∧
    (∀ id, idForEmail hash i e = ok (some id) → id.length = 8 * n) ∧
    ((∃ id, idForEmail hash i e = ok (some id) ∧ idForEmail hash i e' = ok (some id)) ↔
      ∃ t, t.length = n ∧ t <+: e ∧ t <+: e') := by
  rw [idForEmail_prefix hn hi, idForEmail_prefix hn hi]
  refine ⟨?_, ?_, ?_⟩
  · simp
  · intro id h
    by_cases hl : n ≤ e.length
    · rw [if_pos hl] at h
      simp only [ok.injEq, Option.some.injEq] at h
      rw [← h, bits_length]; simp; omega
    · simp [hl] at h
  · constructor
    · rintro ⟨id, h1, h2⟩
      by_cases hl : n ≤ e.length
      · by_cases hl' : n ≤ e'.length
        · rw [if_pos hl, ok.injEq, Option.some.injEq] at h1
          rw [if_pos hl', ok.injEq, Option.some.injEq] at h2
          have := flatMap_bits8_inj (h1.trans h2.symm)
          exact ⟨e.take n, by simp; omega, List.take_prefix _ _, by rw [this]; exact List.take_prefix _ _⟩
        · simp [hl'] at h2
      · simp [hl] at h1
    · rintro ⟨t, ht, hp, hp'⟩
      have h1 : e.take n = t := by rw [← ht]; exact (List.prefix_iff_eq_take.mp hp).symm
      have h2 : e'.take n = t := by rw [← ht]; exact (List.prefix_iff_eq_take.mp hp').symm
      have l1 := hp.length_le
      have l2 := hp'.length_le
      rw [if_pos (by omega), if_pos (by omega), h1, h2]
      exact ⟨_, rfl, rfl⟩

/-- C26: with `FromEnd = n > 0` the selector is decided by the last `n` bytes in the same way. -/
theorem C26_suffix (hash : List Byte → List Byte) (i : Info) (n : Nat) (hn : 0 < n) (h0 : i.fromStart = 0)
    (hi : i.fromEnd = n) (e e' : List Byte) :
    (idForEmail hash i e = ok none ↔ e.length < n) ∧
    (∀ id, idForEmail hash i e = ok (some id) → id.length = 8 * n) ∧
    ((∃ id, idForEmail hash i e = ok (some id) ∧ idForEmail hash i e' = ok (some id)) ↔
      ∃ t, t.length = n ∧ t <:+ e ∧ t <:+ e') := by
  rw [idForEmail_suffix hn h0 hi, idForEmail_suffix hn h0 hi]
  refine ⟨?_, ?_, ?_⟩
  · simp
  · intro id h
    by_cases hl : n ≤ e.length
    · rw [if_pos hl] at h
      simp only [ok.injEq, Option.some.injEq] at h
      rw [← h, bits_length]; simp; omega
    · simp [hl] at h
  · constructor
    · rintro ⟨id, h1, h2⟩
      by_cases hl : n ≤ e.length
      · by_cases hl' : n ≤ e'.length
        · rw [if_pos hl, ok.injEq, Option.some.injEq] at h1
          rw [if_pos hl', ok.injEq, Option.some.injEq] at h2
          have := flatMap_bits8_inj (h1.trans h2.symm)
          exact ⟨e.drop (e.length - n), by simp; omega, List.drop_suffix _ _,
            by rw [this]; exact List.drop_suffix _ _⟩
        · simp [hl'] at h2
      · simp [hl] at h1
    · rintro ⟨t, ht, hp, hp'⟩
      have h1 : e.drop (e.length - n) = t := by rw [← ht]; exact (List.suffix_iff_eq_drop.mp hp).symm
      have h2 : e'.drop (e'.length - n) = t := by rw [← ht]; exact (List.suffix_iff_eq_drop.mp hp').symm
      have l1 := hp.length_le
      have l2 := hp'.length_le
      rw [if_pos (by omega), if_pos (by omega), h1, h2]
      exact ⟨_, rfl, rfl⟩

/-- C26: without prefix or suffix every e-mail has a 128-bit selector; equal e-mails have equal selectors, and
two e-mails with the same selector collide in the first 16 bytes of the hash. -/
theorem C26_exact (hash : List Byte → List Byte) (hh : ∀ e, (hash e).length = 32) (i : Info)
    (h0 : i.fromStart = 0) (h1 : i.fromEnd = 0) (e e' : List Byte) :
    (∃ id, idForEmail hash i e = ok (some id) ∧ id.length = 128) ∧
    (idForEmail hash i e = idForEmail hash i e' ↔ (hash e).take 16 = (hash e').take 16) := by
  rw [idForEmail_exact h0 h1 e (by rw [hh]; omega), idForEmail_exact h0 h1 e' (by rw [hh]; omega)]
  refine ⟨⟨_, rfl, by rw [bits_length]; simp [hh]⟩, ?_⟩
  constructor
  · intro h
    simp only [ok.injEq, Option.some.injEq] at h
    exact flatMap_bits8_inj h
  · intro h; rw [h]

/-- C26: algorithm selectors are 8 bits and injective. -/
theorem C26_algorithm (a b : Byte) :
    (∃ id, idForPubKeyAlgo a = ok id ∧ id.length = 8) ∧
    (idForPubKeyAlgo a = idForPubKeyAlgo b ↔ a = b) := by
  rw [idForPubKeyAlgo_eq, idForPubKeyAlgo_eq]
  refine ⟨⟨_, rfl, by rw [bits_length]; simp⟩, ?_⟩
  constructor
  · intro h
    simp only [ok.injEq] at h
    simpa using flatMap_bits8_inj h
  · intro h; rw [h]

/-- C26: year selectors are 32 bits and injective on the years 0 to 2^32 - 1. -/
theorem C26_year (s t : Time) (hs : 0 ≤ s.year ∧ s.year < 2 ^ 32) (ht : 0 ≤ t.year ∧ t.year < 2 ^ 32) :
    (∃ id, idForYearCreationTime s = ok id ∧ id.length = 32) ∧
    (idForYearCreationTime s = idForYearCreationTime t ↔ s.year = t.year) := by
  rw [idForYear_eq, idForYear_eq]
  refine ⟨⟨_, rfl, by rw [bits_length]; simp [putBE32]⟩, ?_⟩
  constructor
  · intro h
    simp only [ok.injEq] at h
    have h2 := congrArg (fun l => getBE32 (l ++ [])) (flatMap_bits8_inj h)
    simp only [getBE32_put, ok.injEq] at h2
    have h3 := congrArg BitVec.toNat h2
    rw [BitVec.toNat_ofInt, BitVec.toNat_ofInt] at h3
    omega
  · intro h; rw [h]

/-- The hypotheses of the selector theorems are met, e.g. by the suffix `.org` of two addresses. -/
example : ∃ id, idForEmail (fun _ => []) ⟨0, 0, 2, false, false, false⟩ [1, 2, 3] = ok (some id) ∧
    idForEmail (fun _ => []) ⟨0, 0, 2, false, false, false⟩ [9, 9, 2, 3] = ok (some id) :=
  (C26_suffix _ ⟨0, 0, 2, false, false, false⟩ 2 (by omega) rfl rfl _ _).2.2.mpr
    ⟨[2, 3], rfl, ⟨[1], rfl⟩, ⟨[9, 9], rfl⟩⟩

/-- C26/C27: `Time.Year` is the calendar year that contains the day. -/
theorem C27_year_of_day (t : Time) (y : Int) :
    t.year = y ↔ startOfYear y ≤ t.day ∧ t.day < startOfYear (y + 1) := by
  constructor
  · rintro rfl; exact yearOfDay_bounds t.day
  · rintro ⟨h1, h2⟩; exact yearOfDay_unique h1 h2

/-- The calendar of the model: 2018 has 365 days, 2020 has 366, 1900 has 365 and 2000 has 366. -/
example : startOfYear 2019 - startOfYear 2018 = 365 ∧ startOfYear 2021 - startOfYear 2020 = 366 ∧
    startOfYear 1901 - startOfYear 1900 = 365 ∧ startOfYear 2001 - startOfYear 2000 = 366 := by decide

/-- The Gregorian calendar: leap years. -/
def Leap (y : Int) : Prop := 4 ∣ y ∧ (¬ 100 ∣ y ∨ 400 ∣ y)

open Classical in
/-- The Gregorian calendar: the days of a month (1 = January). -/
noncomputable def daysIn (y : Int) (month : Nat) : Int :=
  if month = 2 then (if Leap y then 29 else 28) else if month ∈ [4, 6, 9, 11] then 30 else 31

theorem startOfYear_succ_leap (y : Int) (h : Leap y) : startOfYear (y + 1) = startOfYear y + 366 := by
  obtain ⟨h4, h⟩ := h
  unfold startOfYear
  omega

theorem startOfYear_succ_common (y : Int) (h : ¬ Leap y) : startOfYear (y + 1) = startOfYear y + 365 := by
  unfold Leap at h
  unfold startOfYear
  omega

/-- C27: dates are those of the Gregorian calendar: the months follow each other in all years, each with its number of days,
and years begin with January. -/
theorem C27_calendar (y : Int) (month : Nat) (h1 : 1 ≤ month) (h12 : month ≤ 12) (d : Int) :
    dateDay y (month + 1) d = dateDay y month d + daysIn y month ∧ dateDay y month (d + 1) = dateDay y month d + 1 ∧
      dateDay y 1 1 = startOfYear y := by
  refine ⟨?_, by unfold dateDay; ring, by unfold dateDay; simp [daysBefore]⟩
  by_cases h : Leap y
  · have hl := startOfYear_succ_leap y h
    interval_cases month <;> unfold dateDay daysIn <;> simp [daysBefore, h, hl] <;> ring
  · have hl := startOfYear_succ_common y h
    interval_cases month <;> unfold dateDay daysIn <;> simp [daysBefore, h, hl] <;> ring

example : dateDay 2020 3 1 = dateDay 2020 2 1 + 29 ∧ dateDay 1900 3 1 = dateDay 1900 2 1 + 28 := by decide

/-- C27, full statement: whenever the client builds a creation-time query for year `y` and a key was created in
year `y` (at midnight UTC of some day), the key is selected. -/
def C27_Statement : Prop :=
  ∀ (mk : Int → Time), (∀ d, (mk d).day = d) → ∀ (i : Info) (y : Int) (q : ClientFSS),
    toCreationTimeClientFSS mk i y = ok q →
    ∀ d, (mk d).year = y → idForCreationTime (mk d) = ok q.input

/-- C27: what the client really asks for is midnight on 30 November of the previous year, for every year. -/
theorem C27_query_day (y : Int) :
    dateDay y 0 0 = dateDay (y - 1) 11 30 ∧ yearOfDay (dateDay y 0 0) = y - 1 := by
  refine ⟨?_, year_dateDay_zero y⟩
  rw [dateDay_zero]
  unfold dateDay
  norm_num
  have h3 : daysBefore (Int.toNat 10) (startOfYear y - startOfYear (y - 1) - 365)
      = 304 + (startOfYear y - startOfYear (y - 1) - 365) := rfl
  rw [h3]
  omega

/-- C27: a creation-time query for year `y` selects no key of year `y` at all, provided times of different days
have different encodings. -/
theorem C27_selects_no_key_of_that_year (mk : Int → Time)
    (i : Info) (y : Int) (q : ClientFSS) (hq : toCreationTimeClientFSS mk i y = ok q)
    (t : Time) (ht : t.year = y) (hinj : ∀ d b b', t.bin = ok b → (mk d).bin = ok b' → b = b' → t.day = d) :
    idForCreationTime t ≠ ok q.input := by
  intro h
  unfold idForCreationTime at h
  rw [bind_eq_ok] at h
  obtain ⟨b, hb, hbits⟩ := h
  rw [byteToBits_eq] at hbits
  unfold toCreationTimeClientFSS idForCreationTime at hq
  simp only at hq
  cases hm : (mk (dateDay y 0 0)).bin with
  | ok b' =>
    rw [hm] at hq
    simp only [ok_bind, byteToBits_eq, ok.injEq] at hq
    rw [← hq] at hbits
    simp only [ok.injEq] at hbits
    have := hinj _ b b' hb hm (flatMap_bits8_inj hbits)
    have h2 : t.year = y - 1 := by
      unfold Time.year
      rw [this]
      exact year_dateDay_zero y
    omega
  | err m => rw [hm] at hq; simp at hq
  | crash m => rw [hm] at hq; simp at hq

/-- The length used by `dayTime`. -/
def dayLen (d : Int) : Nat := if d < 0 then 2 * d.natAbs + 1 else 2 * d.natAbs

theorem dayLen_inj {d d' : Int} (h : dayLen d = dayLen d') : d = d' := by
  unfold dayLen at h
  split at h <;> split at h <;> omega

/-- An injective encoding of days, for the examples. -/
def dayTime (d : Int) : Time := ⟨d, ok (List.replicate (dayLen d) 0)⟩

example (e : Int) : ∀ d b b', (dayTime e).bin = ok b → (dayTime d).bin = ok b' → b = b' →
    (dayTime e).day = d := by
  intro d b b' h1 h2 h3
  simp only [dayTime, ok.injEq] at h1 h2
  rw [← h1, ← h2] at h3
  have := congrArg List.length h3
  rw [List.length_replicate, List.length_replicate] at this
  exact dayLen_inj this

theorem idForCreationTime_dayTime (d : Int) :
    idForCreationTime (dayTime d) = ok ((List.replicate (dayLen d) (0 : Byte)).flatMap bits8) := by
  unfold idForCreationTime dayTime
  simp only [ok_bind, byteToBits_eq]

/-- C27 is false: a key created on 1 January is not selected by a query for that year, whatever the year. -/
theorem C27_refuted : ¬ C27_Statement := by
  have key : ∀ y : Int, C27_Statement → False := by
    intro y h
    have hq : toCreationTimeClientFSS dayTime ⟨1, 0, 0, false, false, false⟩ y = ok
        ⟨⟨1, 0, 0, false, false, false⟩, (List.replicate (dayLen (dateDay y 0 0)) (0 : Byte)).flatMap bits8⟩ := by
      unfold toCreationTimeClientFSS
      simp only [idForCreationTime_dayTime]
    have hy : (dayTime (startOfYear y)).year = y := by
      unfold Time.year
      have := startOfYear_lt (y := y) (z := y + 1) (by omega)
      exact yearOfDay_unique (by simp [dayTime]) (by simp only [dayTime]; omega)
    have := h dayTime (fun _ => rfl) _ y _ hq _ hy
    rw [idForCreationTime_dayTime] at this
    simp only [ok.injEq] at this
    have h2 := congrArg List.length this
    rw [bits_length, bits_length, List.length_replicate, List.length_replicate] at h2
    have h3 := dayLen_inj (Nat.eq_of_mul_eq_mul_left (by omega) h2)
    rw [dateDay_zero] at h3
    omega
  exact key 2019

/-- C27: the conjunction query selects the keys created in 2018 whose e-mail matches, whatever year the user has
in mind: its first 32 bits are the selector of the year 2018. -/
theorem C27_and_query_year (hash : List Byte → List Byte) (mk : Int → Time) (hmk : ∀ d, (mk d).day = d)
    (i : Info) (text : List Byte) (q : ClientFSS) (hq : toAndClientFSS hash mk i text = ok q)
    (t : Time) (h0 : 0 ≤ t.year) (h1 : t.year < 2 ^ 32) :
    idForYearCreationTime t = ok (q.input.take 32) ↔ t.year = 2018 := by
  have hy : (mk (dateDay 2019 0 0)).year = 2018 := by
    unfold Time.year
    rw [hmk, year_dateDay_zero]
    norm_num
  have h := C26_year t (mk (dateDay 2019 0 0)) ⟨h0, h1⟩ (by rw [hy]; norm_num)
  obtain ⟨id, hid, hl⟩ := (C26_year (mk (dateDay 2019 0 0)) t (by rw [hy]; norm_num) ⟨h0, h1⟩).1
  unfold toAndClientFSS at hq
  rw [hid] at hq
  simp only [bind_eq_ok, ok.injEq] at hq
  obtain ⟨o, -, rfl⟩ := hq
  simp only
  rw [List.take_append_of_le_length (by omega), List.take_of_length_le (by omega), ← hid, h.2, hy]

example : ∃ q, toAndClientFSS (fun _ => List.replicate 32 0) dayTime ⟨0, 0, 2, true, false, false⟩ [1, 2] = ok q := by
  unfold toAndClientFSS
  rw [idForYear_eq]
  simp only
  rw [idForEmail_suffix (n := 2) (by omega) rfl rfl]
  exact ⟨_, rfl⟩

end Verif.Query
