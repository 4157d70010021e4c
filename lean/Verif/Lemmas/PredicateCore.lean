import Verif.Lemmas.Predicate
import Verif.Lemmas.Query
import Verif.Props.Fss

/-! # Honest runs of predicate queries -/

namespace Verif.Predicate
open Res Verif.Field Verif.Field.Spec Verif.Fss Verif.Fss.Spec Verif.Query Verif.Rand
set_option linter.unusedSimpArgs false

/-- What a successful `query` has done. -/
theorem query_spec {env : Env} (hE : BlockCipher env.E) {fuel ex : Nat} (hex : 0 < ex) (hex20 : ex < 20)
    {rnd rnd' : Prg} {buf r1 r2 buf' : List Byte} {q : ClientFSS} {ms : List Msg} {st : State}
    (hbuf : BufferReady ex buf) (h1 : r1.length = 17) (h2 : r2.length = 16)
    (hq : query env fuel ex rnd buf r1 r2 q 2 = ok (ms, st, rnd', buf'))
    (hno : GenNoHit env.E ex r1 r2 q.input) :
    ∃ k0 k1, ∃ αs : List U32, ms = [⟨q.info, k0⟩, ⟨q.info, k1⟩] ∧ αs.length = ex - 1 ∧
      (∀ v ∈ αs, Canonical v) ∧ st.a = 1 :: αs ∧ st.alphas = αs ++ [0] ∧ BufferReady ex buf' ∧
      ∀ (x : List Bool), x.length = q.input.length →
      EvalNoHit env.E ex k0 x → EvalNoHit env.E ex k1 x →
      ∃ V0 V1, EvalsTo env.E ex k0 x V0 ∧ EvalsTo env.E ex k1 x V1 ∧
        ∀ i, i < ex → (V0 i + (p - V1 i)) % p =
          if clear256 x = q.input then (st.a.getD i 0).toNat % p else 0 := by
  unfold query at hq
  rw [if_neg (by simp)] at hq
  simp only [bind_eq_ok] at hq
  obtain ⟨⟨st', rnd2⟩, hd, ⟨k0, k1, buf2⟩, hg, he⟩ := hq
  simp only [ok.injEq, Prod.mk.injEq] at he hg
  obtain ⟨rfl, rfl, rfl, rfl⟩ := he
  obtain ⟨αs, hl, hc, ha, hal⟩ := drawKeys_spec hex hd
  have hlen : st'.a.length = ex := by rw [ha]; simp; omega
  have hcan : ∀ v ∈ st'.a, Canonical v := by
    rw [ha]
    intro v hv
    rw [List.mem_cons] at hv
    rcases hv with rfl | hv
    · simp [Canonical, p]
    · exact hc v hv
  obtain ⟨k0', k1', b', eg, hb', H⟩ := keys_values hE (by rw [hlen]; exact hbuf) h1 h2 (by omega) hcan
    (by rw [hlen]; exact hno)
  rw [hg] at eg
  simp only [ok.injEq, Prod.mk.injEq] at eg
  obtain ⟨rfl, rfl, rfl⟩ := eg
  rw [hlen] at hb' H
  exact ⟨k0, k1, αs, rfl, hl, hc, ha, hal, hb', H⟩

/-- Reconstruction accepts when the components are the multiples of the first by the MAC keys. -/
theorem reconstruct_accepts {ex : Nat} {st : State} {a0 a1 αs : List U32} (hex : 0 < ex)
    (hl : αs.length = ex - 1) (hc : ∀ v ∈ αs, Canonical v) (hal : st.alphas = αs ++ [0])
    (h0 : a0.length = ex) (h1 : a1.length = ex)
    (hb0 : ∀ j, j < ex → (a0.getD j 0).toNat < p) (hb1 : ∀ j, j < ex → (a1.getD j 0).toNat < p)
    (ht : ∀ i, i < ex - 1 → msum (a0.getD (i + 1) 0) (a1.getD (i + 1) 0) =
      msum (a0.getD 0 0) (a1.getD 0 0) * (αs.getD i 0).toNat % p) :
    ∃ r, reconstruct ex st [a0, a1] = ok r ∧ r.toNat = msum (a0.getD 0 0) (a1.getD 0 0) := by
  have hp : p < 2 ^ 31 := by norm_num [p]
  have hs : ∀ j, j < ex → ((a0.getD j 0 + a1.getD j 0) % modP).toNat = msum (a0.getD j 0) (a1.getD j 0) := by
    intro j hj
    apply add_mod_toNat
    have := hb0 j hj
    have := hb1 j hj
    omega
  refine ⟨_, ?_, hs 0 hex⟩
  rw [reconstruct_count_eq hex (by rw [hal]; simp; omega) h0 h1, if_pos]
  intro i hi hne
  apply hne
  apply BitVec.eq_of_toNat_eq
  have hα : st.alphas.getD i 0 = αs.getD i 0 := by
    rw [hal, List.getD_eq_getElem?_getD, List.getD_eq_getElem?_getD, List.getElem?_append_left (by omega)]
  rw [hα, tagOf_toNat, hs 0 hex, hs (i + 1) (by omega), ht i hi]
  · rw [hs 0 hex]
    have : msum (a0.getD 0 0) (a1.getD 0 0) < p := Nat.mod_lt _ (by norm_num [p])
    omega
  · have : Canonical (αs.getD i 0) := by
      rw [getD_of_lt _ (by omega)]
      exact hc _ (List.getElem_mem _)
    unfold Canonical at this
    omega

/-- Two answers of `ex` reduced words each whose sums are the multiples of the first sum by the MAC keys `αs`. -/
structure Tagged (ex : Nat) (αs a0 a1 : List U32) : Prop where
  len0 : a0.length = ex
  len1 : a1.length = ex
  can0 : ∀ j, j < ex → (a0.getD j 0).toNat < p
  can1 : ∀ j, j < ex → (a1.getD j 0).toNat < p
  tags : ∀ i, i < ex - 1 → msum (a0.getD (i + 1) 0) (a1.getD (i + 1) 0) =
    msum (a0.getD 0 0) (a1.getD 0 0) * (αs.getD i 0).toNat % p

/-- The counting runs of two honest servers, connected in order and exchanged. -/
theorem count_core {env : Env} (hE : BlockCipher env.E) {fuel ex : Nat} (hex : 0 < ex) (hex20 : ex < 20)
    {rnd rnd' : Prg} {buf r1 r2 buf' : List Byte} {q : ClientFSS} {ms : List Msg} {st : State}
    (hbuf : BufferReady ex buf) (h1 : r1.length = 17) (h2 : r2.length = 16)
    (hq : query env fuel ex rnd buf r1 r2 q 2 = ok (ms, st, rnd', buf'))
    (hno : GenNoHit env.E ex r1 r2 q.input)
    {db : KeyDB} (hdb : db.numColumns = db.keys.length) {sel : KeyInfo → Res (Option (List Bool))}
    {f : KeyInfo → Option (List Bool)} (hsel : ∀ ki ∈ db.keys, sel ki = ok (f ki))
    (hlen : ∀ ki ∈ db.keys, ∀ id, f ki = some id → id.length = q.input.length)
    (hev : ∀ ki ∈ db.keys, ∀ id, f ki = some id → ∀ m ∈ ms, EvalNoHit env.E ex m.key id)
    {env0 env1 : Nat → Env} (he0 : ∀ i, (env0 i).E = env.E) (he1 : ∀ i, (env1 i).E = env.E)
    {buf0 buf1 : List Byte} (hb0 : BufferReady ex buf0) (hb1 : BufferReady ex buf1) :
    ∃ k0 k1, ∃ αs : List U32, ms = [⟨q.info, k0⟩, ⟨q.info, k1⟩] ∧ αs.length = ex - 1 ∧ (∀ v ∈ αs, Canonical v) ∧
      st.alphas = αs ++ [0] ∧
    (∃ acc0 acc1 r, countLoop env0 0 db k0 sel ⟨List.replicate ex 0, List.replicate ex 0, buf0⟩ = ok acc0 ∧
      countLoop env1 1 db k1 sel ⟨List.replicate ex 0, List.replicate ex 0, buf1⟩ = ok acc1 ∧
      BufferReady ex acc0.buf ∧ BufferReady ex acc1.buf ∧
      reconstruct ex st [acc0.out, acc1.out] = ok r ∧
      r.toNat = db.keys.countP (fun ki => decide ((f ki).map clear256 = some q.input)) % p ∧
      Tagged ex αs acc0.out acc1.out ∧ r.toNat = msum (acc0.out.getD 0 0) (acc1.out.getD 0 0)) ∧
    (∃ acc0 acc1 r, countLoop env0 0 db k1 sel ⟨List.replicate ex 0, List.replicate ex 0, buf0⟩ = ok acc0 ∧
      countLoop env1 1 db k0 sel ⟨List.replicate ex 0, List.replicate ex 0, buf1⟩ = ok acc1 ∧
      reconstruct ex st [acc0.out, acc1.out] = ok r ∧
      (r.toNat + db.keys.countP (fun ki => decide ((f ki).map clear256 = some q.input))) % p = 0 ∧
      Tagged ex αs acc0.out acc1.out ∧ r.toNat = msum (acc0.out.getD 0 0) (acc1.out.getD 0 0)) := by
  obtain ⟨k0, k1, αs, hms, hl, hc, ha, hal, -, H⟩ := query_spec hE hex hex20 hbuf h1 h2 hq hno
  refine ⟨k0, k1, αs, hms, hl, hc, hal, ?_⟩
  have htake : db.keys.take db.numColumns = db.keys := by rw [hdb]; exact List.take_length
  -- choose the values
  have hmem : ∀ id ∈ ids f db.keys, ∃ V : (Nat → Nat) × (Nat → Nat), EvalsTo env.E ex k0 id V.1 ∧
      EvalsTo env.E ex k1 id V.2 ∧ ∀ i, i < ex → (V.1 i + (p - V.2 i)) % p =
          if clear256 id = q.input then (st.a.getD i 0).toNat % p else 0 := by
    intro id hid
    unfold ids at hid
    rw [List.mem_filterMap] at hid
    obtain ⟨ki, hki, hf⟩ := hid
    have hidl := hlen ki hki id hf
    obtain ⟨V0, V1, hV0, hV1, hV⟩ := H id hidl (hev ki hki id hf ⟨q.info, k0⟩ (by rw [hms]; simp))
      (hev ki hki id hf ⟨q.info, k1⟩ (by rw [hms]; simp))
    exact ⟨(V0, V1), hV0, hV1, hV⟩
  choose! V hV0 hV1 hV using hmem
  have hcount : ((ids f db.keys).map clear256).count q.input = db.keys.countP (fun ki => decide ((f ki).map clear256 = some q.input)) := by
    unfold ids
    rw [List.count, List.countP_map, List.countP_filterMap]
    apply List.countP_congr
    intro ki _
    cases f ki <;> simp
  have hp : 0 < p := by norm_num [p]
  have hα : ∀ i, i < ex - 1 → st.a.getD (i + 1) 0 = αs.getD i 0 := by
    intro i hi; rw [ha]; rfl
  have ha0 : (st.a.getD 0 0).toNat = 1 := by rw [ha]; rfl
  constructor
  · obtain ⟨acc0, e0, l0, b0, o0⟩ := countLoop_eq he0 (sn := 0) (by omega) hsel (V := fun id => (V id).1)
      (by rw [htake]; exact hV0) hb0
    obtain ⟨acc1, e1, l1, b1, o1⟩ := countLoop_eq he1 (sn := 1) (by omega) hsel (V := fun id => (V id).2)
      (by rw [htake]; exact hV1) hb1
    rw [htake] at o0 o1
    have hm : ∀ j, j < ex → msum (acc0.out.getD j 0) (acc1.out.getD j 0) =
        (((ids f db.keys).map clear256).count q.input * (st.a.getD j 0).toNat) % p := by
      intro j hj
      unfold msum
      rw [o0 j hj, o1 j hj, ← Nat.add_mod]
      exact sums_add (fun id hid => hV id hid j hj)
    have hT : Tagged ex αs acc0.out acc1.out := ⟨l0, l1,
      (fun j hj => by rw [o0 j hj]; exact Nat.mod_lt _ hp), (fun j hj => by rw [o1 j hj]; exact Nat.mod_lt _ hp),
      (by
        intro i hi
        rw [hm (i + 1) (by omega), hm 0 hex, hα i hi, ha0, mul_one, Nat.mod_mul_mod])⟩
    obtain ⟨r, er, hr⟩ := reconstruct_accepts (a0 := acc0.out) (a1 := acc1.out) hex hl hc hal l0 l1 hT.can0 hT.can1 hT.tags
    refine ⟨acc0, acc1, r, e0, e1, b0, b1, er, ?_, hT, hr⟩
    rw [hr, hm 0 hex, ha0, mul_one, hcount]
  · obtain ⟨acc0, e0, l0, b0, o0⟩ := countLoop_eq he0 (sn := 0) (by omega) hsel (V := fun id => (V id).2)
      (by rw [htake]; exact hV1) hb0
    obtain ⟨acc1, e1, l1, b1, o1⟩ := countLoop_eq he1 (sn := 1) (by omega) hsel (V := fun id => (V id).1)
      (by rw [htake]; exact hV0) hb1
    rw [htake] at o0 o1
    have hm : ∀ j, j < ex → (msum (acc0.out.getD j 0) (acc1.out.getD j 0) +
        ((ids f db.keys).map clear256).count q.input * (st.a.getD j 0).toNat) % p = 0 := by
      intro j hj
      unfold msum
      rw [o0 j hj, o1 j hj, ← Nat.add_mod, Nat.mod_add_mod]
      exact sums_add_swapped (fun id hid => (hV0 id hid).1 j) (fun id hid => (hV1 id hid).1 j)
        (fun id hid => hV id hid j hj)
    have hT : Tagged ex αs acc0.out acc1.out := ⟨l0, l1,
      (fun j hj => by rw [o0 j hj]; exact Nat.mod_lt _ hp), (fun j hj => by rw [o1 j hj]; exact Nat.mod_lt _ hp),
      (by
        intro i hi
        have m1 := hm (i + 1) (by omega)
        have m0 := hm 0 hex
        rw [hα i hi] at m1
        rw [ha0, mul_one] at m0
        set D1 := msum (acc0.out.getD (i + 1) 0) (acc1.out.getD (i + 1) 0) with hD1
        set D0 := msum (acc0.out.getD 0 0) (acc1.out.getD 0 0) with hD0
        set c := ((ids f db.keys).map clear256).count q.input
        set al := (αs.getD i 0).toNat
        have lt1 : D1 < p := Nat.mod_lt _ hp
        have e : (D1 + c * al) % p = (D0 * al + c * al) % p := by
          rw [m1, ← Nat.add_mul, Nat.mul_mod, m0, Nat.zero_mul, Nat.zero_mod]
        have e2 : D1 ≡ D0 * al [MOD p] := Nat.ModEq.add_right_cancel' (c * al) e
        have e3 : D1 % p = D0 * al % p := e2
        rwa [Nat.mod_eq_of_lt lt1] at e3)⟩
    obtain ⟨r, er, hr⟩ := reconstruct_accepts (a0 := acc0.out) (a1 := acc1.out) hex hl hc hal l0 l1 hT.can0 hT.can1 hT.tags
    refine ⟨acc0, acc1, r, e0, e1, er, ?_, hT, hr⟩
    have := hm 0 hex
    rwa [ha0, mul_one, hcount, ← hr] at this

/-- The average run of two honest servers. -/
theorem avg_core {env : Env} (hE : BlockCipher env.E) {fuel ex : Nat} (hex : 0 < ex) (hex20 : ex < 20)
    {rnd rnd' : Prg} {buf r1 r2 buf' : List Byte} {q : ClientFSS} {ms : List Msg} {st : State}
    (hbuf : BufferReady ex buf) (h1 : r1.length = 17) (h2 : r2.length = 16)
    (hq : query env fuel ex rnd buf r1 r2 q 2 = ok (ms, st, rnd', buf'))
    (hno : GenNoHit env.E ex r1 r2 q.input)
    {db : KeyDB} (hdb : db.numColumns = db.keys.length) {sel : KeyInfo → Res (Option (List Bool))}
    {f : KeyInfo → Option (List Bool)} (hsel : ∀ ki ∈ db.keys, sel ki = ok (f ki))
    (hlen : ∀ ki ∈ db.keys, ∀ id, f ki = some id → id.length = q.input.length)
    (h256 : q.input.length ≤ 256)
    (hev : ∀ ki ∈ db.keys, ∀ id, f ki = some id → ∀ m ∈ ms, EvalNoHit env.E ex m.key id)
    {env0 env1 : Nat → Env} (he0 : ∀ i, (env0 i).E = env.E) (he1 : ∀ i, (env1 i).E = env.E)
    {buf0 buf1 : List Byte} (hb0 : BufferReady ex buf0) (hb1 : BufferReady ex buf1)
    {now : Int} {now0 now1 : Nat → Int} (hn0 : ∀ i, now0 i = now) (hn1 : ∀ i, now1 i = now)
    (hage : ∀ ki ∈ db.keys, now - ki.creation.year < 2 ^ 32) :
    ∃ k0 k1, ms = [⟨q.info, k0⟩, ⟨q.info, k1⟩] ∧
    ∃ acc0 acc1 s0 s1, avgLoop env0 now0 0 db k0 sel ⟨List.replicate ex 0, List.replicate ex 0, buf0⟩
        (List.replicate ex 0) = ok (acc0, s0) ∧
      avgLoop env1 now1 1 db k1 sel ⟨List.replicate ex 0, List.replicate ex 0, buf1⟩
        (List.replicate ex 0) = ok (acc1, s1) ∧
      reconstruct ex st [acc0.out ++ s0, acc1.out ++ s1] =
        divU32 (BitVec.ofNat 32 ((((db.keys.filter (fun ki => decide (f ki = some q.input ∧ ki.creation.year ≤ now))).map
            (fun ki => (now - ki.creation.year).toNat)).sum) % p))
          (BitVec.ofNat 32 ((db.keys.filter (fun ki => decide (f ki = some q.input ∧ ki.creation.year ≤ now))).length % p)) ∧
      acc0.out.length = ex ∧ reconstruct ex st [acc0.out, acc1.out ++ s1] = ok (BitVec.ofNat 32
        ((db.keys.filter (fun ki => decide (f ki = some q.input ∧ ki.creation.year ≤ now))).length % p)) := by
  obtain ⟨k0, k1, αs, hms, hl, hc, ha, hal, -, H⟩ := query_spec hE hex hex20 hbuf h1 h2 hq hno
  refine ⟨k0, k1, hms, ?_⟩
  have htake : db.keys.take db.numColumns = db.keys := by rw [hdb]; exact List.take_length
  have hmem : ∀ id ∈ ids f db.keys, ∃ V : (Nat → Nat) × (Nat → Nat), EvalsTo env.E ex k0 id V.1 ∧
      EvalsTo env.E ex k1 id V.2 ∧ ∀ i, i < ex → (V.1 i + (p - V.2 i)) % p =
          if id = q.input then (st.a.getD i 0).toNat % p else 0 := by
    intro id hid
    unfold ids at hid
    rw [List.mem_filterMap] at hid
    obtain ⟨ki, hki, hf⟩ := hid
    have hidl := hlen ki hki id hf
    obtain ⟨V0, V1, hV0, hV1, hV⟩ := H id hidl (hev ki hki id hf ⟨q.info, k0⟩ (by rw [hms]; simp))
      (hev ki hki id hf ⟨q.info, k1⟩ (by rw [hms]; simp))
    rw [clear256_of_le (by omega)] at hV
    exact ⟨(V0, V1), hV0, hV1, hV⟩
  choose! V hV0 hV1 hV using hmem
  set g : KeyInfo → Int := fun ki => now - ki.creation.year with hg
  have hin : ∀ x ∈ aged f g db.keys, x.1 ∈ ids f db.keys := by
    intro x hx
    unfold aged at hx
    rw [List.mem_filterMap] at hx
    obtain ⟨ki, hki, hx⟩ := hx
    unfold ids
    rw [List.mem_filterMap]
    refine ⟨ki, hki, ?_⟩
    split at hx
    · simp at hx
    · rw [Option.map_eq_some_iff] at hx
      obtain ⟨id, h1, rfl⟩ := hx
      exact h1
  set M := db.keys.filter (fun ki => decide (f ki = some q.input ∧ ki.creation.year ≤ now)) with hM
  have hfilt : (aged f g db.keys).filter (fun x => x.1 = q.input) =
      M.map (fun ki => (q.input, (now - ki.creation.year).toNat)) := by
    rw [hM]
    unfold aged
    induction db.keys with
    | nil => rfl
    | cons ki l ih =>
      by_cases hneg : g ki < 0
      · have hnot : ¬ (ki.creation.year ≤ now) := by simp only [hg] at hneg; omega
        rw [List.filterMap_cons_none (by simp [hneg]), ih, List.filter_cons_of_neg (by simp [hnot])]
      · have hle : ki.creation.year ≤ now := by simp only [hg] at hneg; omega
        cases hf : f ki with
        | none =>
          rw [List.filterMap_cons_none (by simp [hf]), ih, List.filter_cons_of_neg (by simp [hf])]
        | some id =>
          rw [List.filterMap_cons_some (b := (id, (g ki).toNat)) (by simp [hf, hneg])]
          by_cases hid : id = q.input
          · subst hid
            rw [List.filter_cons_of_pos (by simp), ih, List.filter_cons_of_pos (by simp [hf, hle])]
            simp [hg]
          · rw [List.filter_cons_of_neg (by simpa using hid), ih,
              List.filter_cons_of_neg (by simp [hf, hid])]
  have hp : 0 < p := by norm_num [p]
  have hp31 : p < 2 ^ 31 := by norm_num [p]
  have hα : ∀ i, i < ex - 1 → st.a.getD (i + 1) 0 = αs.getD i 0 := by
    intro i hi; rw [ha]; rfl
  have ha0 : (st.a.getD 0 0).toNat = 1 := by rw [ha]; rfl
  obtain ⟨acc0, s0, e0, l0, ls0, b0, o0⟩ := avgLoop_eq he0 (sn := 0) hn0 (by omega) hsel hage
    (V := fun id => (V id).1) (by rw [htake]; exact hV0) hb0
  obtain ⟨acc1, s1, e1, l1, ls1, b1, o1⟩ := avgLoop_eq he1 (sn := 1) hn1 (by omega) hsel hage
    (V := fun id => (V id).2) (by rw [htake]; exact hV1) hb1
  rw [htake] at o0 o1
  refine ⟨acc0, acc1, s0, s1, e0, e1, ?_⟩
  have hadd : ∀ j, j < ex → ∀ x ∈ aged f g db.keys, ((V x.1).1 j + (p - (V x.1).2 j)) % p =
      if x.1 = q.input then (st.a.getD j 0).toNat % p else 0 := fun j hj x hx => hV x.1 (hin x hx) j hj
  have hmc : ∀ j, j < ex → msum (acc0.out.getD j 0) (acc1.out.getD j 0) =
      (M.length * (st.a.getD j 0).toNat) % p := by
    intro j hj
    unfold msum
    rw [(o0 j hj).1, (o1 j hj).1, ← Nat.add_mod]
    have := wsums_add (a := q.input) (c := (st.a.getD j 0).toNat) (V0 := fun id => (V id).1 j)
      (V1 := fun id => (V id).2 j) (hadd j hj) (fun _ => 1)
    simp only [mul_one] at this
    rw [this, hfilt, List.map_map]
    congr 2
    simp [Function.comp_def]
  have hms' : ∀ j, j < ex → msum (s0.getD j 0) (s1.getD j 0) =
      ((M.map (fun ki => (now - ki.creation.year).toNat)).sum * (st.a.getD j 0).toNat) % p := by
    intro j hj
    unfold msum
    rw [(o0 j hj).2, (o1 j hj).2, ← Nat.add_mod]
    have := wsums_add (a := q.input) (c := (st.a.getD j 0).toNat) (V0 := fun id => (V id).1 j)
      (V1 := fun id => (V id).2 j) (hadd j hj) (fun x => x.2)
    rw [this, hfilt, List.map_map]
    rfl
  have lt : ∀ (x y : U32), x.toNat < p → y.toNat < p → ((x + y) % modP).toNat = msum x y := by
    intro x y hx hy
    apply add_mod_toNat
    omega
  have hc' : ∀ j, j < ex → ((acc0.out.getD j 0 + acc1.out.getD j 0) % modP).toNat =
      (M.length * (st.a.getD j 0).toNat) % p := by
    intro j hj
    rw [lt _ _ (by rw [(o0 j hj).1]; exact Nat.mod_lt _ hp) (by rw [(o1 j hj).1]; exact Nat.mod_lt _ hp), hmc j hj]
  have hs' : ∀ j, j < ex → ((s0.getD j 0 + s1.getD j 0) % modP).toNat =
      ((M.map (fun ki => (now - ki.creation.year).toNat)).sum * (st.a.getD j 0).toNat) % p := by
    intro j hj
    rw [lt _ _ (by rw [(o0 j hj).2]; exact Nat.mod_lt _ hp) (by rw [(o1 j hj).2]; exact Nat.mod_lt _ hp), hms' j hj]
  have hαi : ∀ i, i < ex - 1 → st.alphas.getD i 0 = αs.getD i 0 := by
    intro i hi
    rw [hal, List.getD_eq_getElem?_getD, List.getD_eq_getElem?_getD, List.getElem?_append_left (by omega)]
  have hαc : ∀ i, i < ex - 1 → (αs.getD i 0).toNat < 2 ^ 31 := by
    intro i hi
    have : Canonical (αs.getD i 0) := by
      rw [getD_of_lt _ (by omega)]
      exact hc _ (List.getElem_mem _)
    unfold Canonical at this
    omega
  have hmodlt : ∀ z, z % p < 2 ^ 31 := fun z => by
    have := Nat.mod_lt z hp
    omega
  have hcount : ∀ i, i < ex - 1 → tagOf ((acc0.out.getD 0 0 + acc1.out.getD 0 0) % modP) (st.alphas.getD i 0)
      = (acc0.out.getD (i + 1) 0 + acc1.out.getD (i + 1) 0) % modP := by
    intro i hi
    apply BitVec.eq_of_toNat_eq
    rw [hαi i hi, tagOf_toNat (by rw [hc' 0 hex]; exact hmodlt _) (hαc i hi), hc' 0 hex,
      hc' (i + 1) (by omega), ha0, mul_one, hα i hi, Nat.mod_mul_mod]
  have hval : (acc0.out.getD 0 0 + acc1.out.getD 0 0) % modP = BitVec.ofNat 32 (M.length % p) := by
    apply BitVec.eq_of_toNat_eq
    rw [hc' 0 hex, ha0, mul_one, BitVec.toNat_ofNat, Nat.mod_eq_of_lt (a := _ % p)]
    have := hmodlt M.length
    omega
  refine ⟨?_, l0, ?_⟩
  · rw [reconstruct_avg hex (by rw [hal]; simp; omega) l0 l1 ls0 ls1]
    rw [check_loop]
    · simp only [ok_bind]
      congr 1
      apply BitVec.eq_of_toNat_eq
      rw [hs' 0 hex, ha0, mul_one, BitVec.toNat_ofNat, Nat.mod_eq_of_lt (a := _ % p)]
      have := hmodlt (M.map (fun ki => (now - ki.creation.year).toNat)).sum
      omega
    · intro i hi
      rw [if_neg, if_neg]
      · rw [not_not]
        apply BitVec.eq_of_toNat_eq
        rw [hαi i hi, tagOf_toNat (by rw [hs' 0 hex]; exact hmodlt _) (hαc i hi), hs' 0 hex,
          hs' (i + 1) (by omega), ha0, mul_one, hα i hi, Nat.mod_mul_mod]
      · rw [not_not]
        exact hcount i hi
  · have hl : ∀ j, j < ex → (acc1.out ++ s1).getD j 0 = acc1.out.getD j 0 := by
      intro j hj
      simp only [List.getD_eq_getElem?_getD]
      rw [List.getElem?_append_left (by omega)]
    rw [reconstruct_count_le hex (by rw [hal]; simp; omega) l0 (by rw [List.length_append]; omega), if_pos]
    · rw [hl 0 hex, hval]
    · intro i hi
      rw [hl 0 hex, hl (i + 1) (by omega), not_not]
      exact hcount i hi

end Verif.Predicate
