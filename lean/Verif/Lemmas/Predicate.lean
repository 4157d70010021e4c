import Verif.Model.Predicate
import Verif.Lemmas.FssCorrect

/-! # Lemmas about the predicate-query client and server -/

namespace Verif.Predicate
open Res Verif.Field Verif.Field.Spec Verif.Fss Verif.Fss.Spec Verif.Query Verif.Rand
set_option linter.unusedSimpArgs false

/-! ### Evaluation of one key -/

/-- What party `sn` contributes when the underlying value is `v`. -/
def contrib (sn : Byte) (v : Nat) : Nat := if sn = 0 then v else p - v

/-- Evaluating `k` at `x` gives the values `V` (as party 0) or their negatives (as any other party). -/
def EvalsTo (E : Cipher) (n : Nat) (k : Key) (x : List Bool) (V : Nat → Nat) : Prop :=
  (∀ i, V i < p) ∧ ∀ (sn : Byte) (env : Env), env.E = E → ∀ buf (out : List U32), out.length = n →
    BufferReady n buf → ∃ y buf', evaluatePF env buf sn k x out = ok (y, buf') ∧ BufferReady n buf' ∧
      y.length = n ∧ ∀ i, i < n → (y.getD i 0).toNat = contrib sn (V i)

theorem evalsTo_of {E : Cipher} (hE : BlockCipher E) {n : Nat} (hn : n < 20) {k : Key} {x : List Bool}
    (hk : k.sInit.length = 16) (ht : Bit k.tInit) (hcw : k.cw.length = x.length)
    (h18 : ∀ cw ∈ k.cw, cw.length = 18) (hf : k.finalCW.length = n)
    (hno : ∀ s t, evalPath E k x = ok (s, t) → NoHit E n s) :
    ∃ V, EvalsTo E n k x V := by
  set r := evalRec E ((clear256 x).zip k.cw) (k.sInit, k.tInit) with hr
  have hlt : ∀ i, (shareC E n k.finalCW 0 r i).toNat < p := by
    intro i
    rw [shareC_zero, BitVec.toNat_umod, modP_toNat, p_val]
    exact Nat.mod_lt _ (by norm_num)
  refine ⟨fun i => (shareC E n k.finalCW 0 r i).toNat, hlt, ?_⟩
  intro sn env he buf out hout hbuf
  subst hout
  obtain ⟨o, ho, e⟩ := evaluate_eq (env := env) (k := k) (x := x) (ocb := buf) (out := out)
    (by rw [he]; exact hE) sn hn hbuf hk ht hcw h18 hf (by rw [he]; exact hno)
  refine ⟨_, o, e, ho, by simp, ?_⟩
  intro i hi
  rw [he, ← hr, getD_of_lt _ (by simpa using hi)]
  simp only [List.getElem_map, List.getElem_range, contrib]
  by_cases hsn : sn = 0
  · subst hsn; rw [if_pos rfl]
  · rw [if_neg hsn]
    have h1 := hlt i
    rw [shareC_zero] at h1 ⊢
    unfold shareC
    rw [if_neg hsn, BitVec.toNat_sub, modP_toNat]
    rw [p_val] at *
    omega

/-- The two generated keys evaluate to values whose difference is the point function. -/
theorem keys_values {env : Env} (hE : BlockCipher env.E) {ocb r1 r2 : List Byte} {a : List Bool} {b : List U32}
    (ho : BufferReady b.length ocb) (h1 : r1.length = 17) (h2 : r2.length = 16) (hbl : b.length < 20)
    (hb : ∀ v ∈ b, Canonical v)
    (hno : ∀ g, genLoop env.E a (r1.take 16) r2 (r1.getD 16 0 % 2) (r1.getD 16 0 % 2 ^^^ 1) = ok g →
      NoHit env.E b.length g.s0 ∧ NoHit env.E b.length g.s1) :
    ∃ k0 k1 ocb', generateTreePF env ocb r1 r2 a b = ok (k0, k1, ocb') ∧ BufferReady b.length ocb' ∧
      ∀ (x : List Bool), x.length = a.length →
      (∀ s t, evalPath env.E k0 x = ok (s, t) → NoHit env.E b.length s) →
      (∀ s t, evalPath env.E k1 x = ok (s, t) → NoHit env.E b.length s) →
      ∃ V0 V1, EvalsTo env.E b.length k0 x V0 ∧ EvalsTo env.E b.length k1 x V1 ∧
        ∀ i, i < b.length → (V0 i + (p - V1 i)) % p = if clear256 x = a then (b.getD i 0).toNat % p else 0 := by
  obtain ⟨k0, k1, ocb', e, ho', H⟩ := fss_correct (envG := env) (env0 := env) (env1 := env) hE rfl rfl
    ho h1 h2 hbl hb hno
  refine ⟨k0, k1, ocb', e, ho', ?_⟩
  intro x hx hn0 hn1
  obtain ⟨y0, o0, y1, o1, e0, e1, -, -, hc⟩ := H x hx hn0 hn1 ocb ocb b b rfl rfl ho ho
  have hgen := e
  obtain ⟨c0, c1, cne⟩ := init_bits (r1.getD 16 0)
  have hl0 : (r1.take 16).length = 16 := by simp [h1]
  have hgl := genLoop_eq hE a hl0 h2 c0 c1 cne
  have hgc := genRec_cw hE a hl0 h2 c0 c1 cne
  obtain ⟨hg0, hg1⟩ := hno _ hgl
  obtain ⟨ocb'', -, eg⟩ := generate_eq hE ho h1 h2 hbl _ hgl hg0 hg1
  rw [e] at eg
  simp only [ok.injEq, Prod.mk.injEq] at eg
  obtain ⟨hk0, hk1, -⟩ := eg
  obtain ⟨V0, hV0⟩ := evalsTo_of hE hbl (k := k0) (x := x) (by rw [hk0]; exact hl0) (by rw [hk0]; exact c0)
    (by rw [hk0, hx]; exact hgc.1) (by rw [hk0]; exact hgc.2) (by rw [hk0]; simp [fcwC]) hn0
  obtain ⟨V1, hV1⟩ := evalsTo_of hE hbl (k := k1) (x := x) (by rw [hk1]; exact h2) (by rw [hk1]; exact c1)
    (by rw [hk1, hx]; exact hgc.1) (by rw [hk1]; exact hgc.2) (by rw [hk1]; simp [fcwC]) hn1
  refine ⟨V0, V1, hV0, hV1, ?_⟩
  intro i hi
  obtain ⟨z0, d0, f0, -, hl0', hz0⟩ := hV0.2 0 env rfl ocb b rfl ho
  obtain ⟨z1, d1, f1, -, hl1', hz1⟩ := hV1.2 1 env rfl ocb b rfl ho
  rw [e0] at f0
  rw [e1] at f1
  simp only [ok.injEq, Prod.mk.injEq] at f0 f1
  obtain ⟨rfl, -⟩ := f0
  obtain ⟨rfl, -⟩ := f1
  rw [point_range] at hc
  have hci : _ = _ := congrArg (fun l => l.getD i 0) hc
  beta_reduce at hci
  rw [getD_of_lt _ (by simp [combine, hl0', hl1', hi]), getD_of_lt _ (by simpa using hi)] at hci
  simp only [combine, List.getElem_zipWith, List.getElem_map, List.getElem_range] at hci
  have w0 := hz0 i hi
  have w1 := hz1 i hi
  rw [getD_of_lt _ (by omega)] at w0 w1
  rw [w0, w1] at hci
  simpa [contrib] using hci

/-! ### Accumulation -/

theorem accumulate_eq {out tmp : List U32} (h : tmp.length = out.length)
    (ho : ∀ j, (out.getD j 0).toNat < p) (ht : ∀ j, (tmp.getD j 0).toNat ≤ p) :
    ∃ o, accumulate out tmp = ok o ∧ o.length = out.length ∧
      ∀ j, j < out.length → (o.getD j 0).toNat = ((out.getD j 0).toNat + (tmp.getD j 0).toNat) % p := by
  have key := forLoop_inv (n := out.length) (s := out) (body := fun j out => do
      let o ← idx out j
      let t ← idx tmp j
      setAt out j ((o + t) % modP))
    (fun i (o : List U32) => o.length = out.length ∧ ∀ j, o.getD j 0 =
      if j < i then (out.getD j 0 + tmp.getD j 0) % modP else out.getD j 0) ⟨rfl, by simp⟩ (by
      rintro i o hi ⟨hl, hv⟩
      rw [idx_getD 0 (by omega), idx_getD 0 (by omega)]
      simp only [ok_bind]
      rw [setAt_of_lt (by omega)]
      refine ⟨_, rfl, by simpa using hl, ?_⟩
      intro j
      have hvi := hv i
      have hvj := hv j
      rw [if_neg (by omega)] at hvi
      by_cases hj : j = i
      · subst hj
        rw [if_pos (by omega), hvi, getD_of_lt _ (by simp; omega), List.getElem_set_self]
      · have e1 : j < i + 1 ↔ j < i := by omega
        simp only [e1]
        rw [← hvj]
        simp only [List.getD_eq_getElem?_getD, List.getElem?_set_ne (Ne.symm hj)])
  obtain ⟨o, e, hl, hv⟩ := key
  refine ⟨o, e, hl, ?_⟩
  intro j hj
  rw [hv j, if_pos hj]
  have h1 := ho j
  have h2 := ht j
  rw [p_val] at *
  rw [BitVec.toNat_umod, BitVec.toNat_add, modP_toNat]
  omega

theorem contrib_le {sn : Byte} {v : Nat} (h : v < p) : contrib sn v ≤ p := by
  unfold contrib
  split
  · omega
  · omega

theorem getD_replicate_zero (n j : Nat) : ((List.replicate n (0 : U32)).getD j 0) = 0 := by
  simp only [List.getD_eq_getElem?_getD, List.getElem?_replicate]
  split <;> simp

/-- The selected identifiers, in database order. -/
def ids (f : KeyInfo → Option (List Bool)) (l : List KeyInfo) : List (List Bool) := l.filterMap f

theorem take_succ_filterMap {α β : Type _} (f : α → Option β) (l : List α) (i : Nat) (h : i < l.length) :
    (l.take (i + 1)).filterMap f = (l.take i).filterMap f ++ (f l[i]).toList := by
  rw [List.take_add_one, List.filterMap_append, List.getElem?_eq_getElem h]
  congr 1

theorem take_succ_of_lt {α : Type _} (l : List α) (i : Nat) (h : i < l.length) :
    l.take (i + 1) = l.take i ++ [l[i]] := by
  rw [List.take_add_one, List.getElem?_eq_getElem h]
  rfl

theorem countLoop_eq {E : Cipher} {n : Nat} {env : Nat → Env} (henv : ∀ i, (env i).E = E) {sn : Byte}
    {db : KeyDB} (hdb : db.numColumns ≤ db.keys.length) {k : Key} {sel : KeyInfo → Res (Option (List Bool))}
    {f : KeyInfo → Option (List Bool)} (hsel : ∀ ki ∈ db.keys, sel ki = ok (f ki))
    {V : List Bool → Nat → Nat}
    (hV : ∀ id ∈ ids f (db.keys.take db.numColumns), EvalsTo E n k id (V id)) {buf : List Byte}
    (hbuf : BufferReady n buf) :
    ∃ acc, countLoop env sn db k sel ⟨List.replicate n 0, List.replicate n 0, buf⟩ = ok acc ∧
      acc.out.length = n ∧ BufferReady n acc.buf ∧
      ∀ j, j < n → (acc.out.getD j 0).toNat =
        ((ids f (db.keys.take db.numColumns)).map (fun id => contrib sn (V id j))).sum % p := by
  have key := forLoop_inv (n := db.numColumns) (s := (⟨List.replicate n 0, List.replicate n 0, buf⟩ : Acc))
    (body := fun i (s : Acc) => do
      let ki ← idx db.keys i
      let id ← sel ki
      match id with
      | none => ok s
      | some id => do
        let (tmp, buf) ← evaluatePF (env i) s.buf sn k id s.tmp
        let out ← accumulate s.out tmp
        ok ⟨out, tmp, buf⟩)
    (fun i (s : Acc) => s.out.length = n ∧ s.tmp.length = n ∧ BufferReady n s.buf ∧
      ∀ j, (s.out.getD j 0).toNat = if j < n then
        ((ids f (db.keys.take i)).map (fun id => contrib sn (V id j))).sum % p else 0)
    (by
      refine ⟨by simp, by simp, hbuf, ?_⟩
      intro j
      simp only [getD_replicate_zero]
      simp [ids])
    (by
      rintro i ⟨out, tmp, b⟩ hi ⟨hl, htl, hb, hv⟩
      simp only at hl htl hb hv
      have hik : i < db.keys.length := by omega
      rw [idx_of_lt hik]
      simp only [ok_bind]
      rw [hsel _ (List.getElem_mem hik)]
      simp only [ok_bind]
      have hids : ids f (db.keys.take (i + 1)) = ids f (db.keys.take i) ++ (f db.keys[i]).toList :=
        take_succ_filterMap f db.keys i hik
      cases hf : f db.keys[i] with
      | none =>
        simp only
        refine ⟨_, rfl, hl, htl, hb, ?_⟩
        intro j
        rw [hids, hf]
        simpa using hv j
      | some id =>
        simp only
        have hmem : id ∈ ids f (db.keys.take db.numColumns) := by
          unfold ids
          rw [List.mem_filterMap]
          refine ⟨db.keys[i], ?_, hf⟩
          rw [List.mem_take_iff_getElem]
          exact ⟨i, by omega, rfl⟩
        obtain ⟨hlt, hev⟩ := hV id hmem
        obtain ⟨y, b', e, hb', hyl, hy⟩ := hev sn (env i) (henv i) b tmp htl hb
        rw [e]
        simp only [ok_bind]
        have hp : 0 < p := by norm_num [p]
        obtain ⟨o, eo, hol, hov⟩ := accumulate_eq (out := out) (tmp := y) (by omega)
          (by intro j; rw [hv j]; split
              · exact Nat.mod_lt _ hp
              · exact hp)
          (by
            intro j
            by_cases hj : j < n
            · rw [hy j hj]; exact contrib_le (hlt j)
            · rw [List.getD_eq_getElem?_getD, List.getElem?_eq_none (by omega)]
              simp)
        rw [eo]
        simp only [ok_bind]
        refine ⟨_, rfl, hol.trans hl, hyl, hb', ?_⟩
        intro j
        by_cases hj : j < n
        · simp only
          rw [if_pos hj, hov j (by omega), hv j, if_pos hj, hy j hj, hids, hf]
          simp
        · simp only
          rw [if_neg hj, List.getD_eq_getElem?_getD, List.getElem?_eq_none (by rw [hol]; omega)]
          simp)
  obtain ⟨acc, e, hl, -, hb, hv⟩ := key
  refine ⟨acc, e, hl, hb, ?_⟩
  intro j hj
  rw [hv j, if_pos hj]

/-- Adding up the two servers' sums. -/
theorem sums_add {L : List (List Bool)} {a : List Bool} {c : Nat} {V0 V1 : List Bool → Nat}
    {g : List Bool → List Bool}
    (h : ∀ id ∈ L, (V0 id + (p - V1 id)) % p = if g id = a then c % p else 0) :
    ((L.map (fun id => contrib 0 (V0 id))).sum + (L.map (fun id => contrib 1 (V1 id))).sum) % p
      = ((L.map g).count a * c) % p := by
  induction L with
  | nil => simp
  | cons x L ih =>
    have hx := h x (by simp)
    have hL := ih (fun id hid => h id (by simp [hid]))
    have h0 : contrib 0 (V0 x) = V0 x := by simp [contrib]
    have h1 : contrib 1 (V1 x) = p - V1 x := by simp [contrib]
    simp only [List.map_cons, List.sum_cons, h0, h1]
    rw [show V0 x + (L.map (fun id => contrib 0 (V0 id))).sum
        + (p - V1 x + (L.map (fun id => contrib 1 (V1 id))).sum)
        = (V0 x + (p - V1 x)) + ((L.map (fun id => contrib 0 (V0 id))).sum
          + (L.map (fun id => contrib 1 (V1 id))).sum) by omega]
    rw [Nat.add_mod, hx, hL]
    by_cases hxa : g x = a
    · subst hxa
      rw [if_pos rfl, List.count_cons_self, ← Nat.add_mod]
      congr 1
      ring
    · rw [if_neg hxa, List.count_cons_of_ne hxa]
      simp

/-- Adding up the two servers' sums when the keys were exchanged. -/
theorem sums_add_swapped {L : List (List Bool)} {a : List Bool} {c : Nat} {V0 V1 : List Bool → Nat}
    {g : List Bool → List Bool}
    (h0 : ∀ id ∈ L, V0 id < p) (h1 : ∀ id ∈ L, V1 id < p)
    (h : ∀ id ∈ L, (V0 id + (p - V1 id)) % p = if g id = a then c % p else 0) :
    ((L.map (fun id => contrib 0 (V1 id))).sum + (L.map (fun id => contrib 1 (V0 id))).sum
      + (L.map g).count a * c) % p = 0 := by
  induction L with
  | nil => simp
  | cons x L ih =>
    have hx := h x (by simp)
    have hL := ih (fun id hid => h0 id (by simp [hid])) (fun id hid => h1 id (by simp [hid]))
      (fun id hid => h id (by simp [hid]))
    have hx0 := h0 x (by simp)
    have hx1 := h1 x (by simp)
    have e0 : contrib 0 (V1 x) = V1 x := by simp [contrib]
    have e1 : contrib 1 (V0 x) = p - V0 x := by simp [contrib]
    simp only [List.map_cons, List.sum_cons, e0, e1]
    have hz : ((V1 x + (p - V0 x)) + (V0 x + (p - V1 x))) % p = 0 := by
      rw [show (V1 x + (p - V0 x)) + (V0 x + (p - V1 x)) = p * 2 by omega]
      exact Nat.mul_mod_right p 2
    rw [Nat.add_mod, hx] at hz
    by_cases hxa : g x = a
    · subst hxa
      rw [if_pos rfl] at hz
      rw [List.count_cons_self]
      rw [show V1 x + (L.map (fun id => contrib 0 (V1 id))).sum
          + (p - V0 x + (L.map (fun id => contrib 1 (V0 id))).sum) + ((L.map g).count (g x) + 1) * c
          = ((V1 x + (p - V0 x)) + c) + ((L.map (fun id => contrib 0 (V1 id))).sum
            + (L.map (fun id => contrib 1 (V0 id))).sum + (L.map g).count (g x) * c) by ring]
      rw [← Nat.add_mod] at hz
      rw [Nat.add_mod, hz, hL]
      simp
    · rw [if_neg hxa] at hz
      rw [List.count_cons_of_ne hxa]
      rw [show V1 x + (L.map (fun id => contrib 0 (V1 id))).sum
          + (p - V0 x + (L.map (fun id => contrib 1 (V0 id))).sum) + (L.map g).count a * c
          = (V1 x + (p - V0 x)) + ((L.map (fun id => contrib 0 (V1 id))).sum
            + (L.map (fun id => contrib 1 (V0 id))).sum + (L.map g).count a * c) by ring]
      rw [Nat.add_mod, hL]
      simpa using hz

/-! ### Drawing the MAC keys -/

theorem drawKeys_spec {fuel ex : Nat} {rnd rnd' : Prg} {st : State} (hex : 0 < ex)
    (h : drawKeys fuel ex rnd = ok (st, rnd')) :
    ∃ αs : List U32, αs.length = ex - 1 ∧ (∀ v ∈ αs, Canonical v) ∧ st.a = 1 :: αs ∧ st.alphas = αs ++ [0] := by
  unfold drawKeys at h
  rw [setAt_of_lt (by simpa using hex)] at h
  simp only [ok_bind, bind_eq_ok] at h
  obtain ⟨⟨al, a, r⟩, hl, he⟩ := h
  simp only [ok.injEq, Prod.mk.injEq] at he
  obtain ⟨rfl, -⟩ := he
  have := forLoop_inv_ok (P := fun i (s : List U32 × List U32 × Prg) => ∃ αs : List U32, αs.length = i ∧
    (∀ v ∈ αs, Canonical v) ∧ s.2.1 = 1 :: (αs ++ List.replicate (ex - 1 - i) 0) ∧
      s.1 = αs ++ List.replicate (ex - i) 0) ?_ ?_ hl
  · obtain ⟨αs, h1, h2, h3, h4⟩ := this
    refine ⟨αs, h1, h2, ?_, ?_⟩
    · simpa using h3
    · simp only at h4
      rw [h4]
      rw [show ex - (ex - 1) = 1 by omega]
      rfl
  · refine ⟨[], rfl, by simp, ?_, by simp⟩
    obtain ⟨e, rfl⟩ : ∃ e, ex = e + 1 := ⟨ex - 1, by omega⟩
    simp [List.replicate_succ]
  · rintro i ⟨al, a, r⟩ ⟨al', a', r'⟩ hi ⟨αs, h1, h2, h3, h4⟩ hb
    simp only [bind_eq_ok] at hb
    obtain ⟨⟨e, r2⟩, he, al2, hal, a2, ha2, heq⟩ := hb
    simp only [ok.injEq, Prod.mk.injEq] at heq
    obtain ⟨rfl, rfl, -⟩ := heq
    simp only at h3 h4 hal ha2
    subst h3 h4
    rw [setAt_of_lt (by simp; omega)] at hal ha2
    simp only [ok.injEq] at hal ha2
    refine ⟨αs ++ [e], by simp [h1], ?_, ?_, ?_⟩
    · intro v hv
      rw [List.mem_append, List.mem_singleton] at hv
      rcases hv with hv | rfl
      · exact h2 v hv
      · exact randElementLoop_out fuel _ modP r r2 v (by simp) (Or.inl rfl) he
    · rw [← ha2, List.set_cons_succ, List.set_append_right _ _ (by omega), h1, Nat.sub_self]
      obtain ⟨d, hd⟩ : ∃ d, ex - 1 - i = d + 1 := ⟨ex - 1 - i - 1, by omega⟩
      rw [hd, show ex - 1 - (i + 1) = d by omega, List.replicate_succ]
      simp
    · rw [← hal, List.set_append_right _ _ (by omega), h1, Nat.sub_self]
      obtain ⟨d, hd⟩ : ∃ d, ex - i = d + 1 := ⟨ex - i - 1, by omega⟩
      rw [hd, show ex - (i + 1) = d by omega, List.replicate_succ]
      simp

/-! ### Reconstruction -/

theorem tagOf_toNat {d a : U32} (hd : d.toNat < 2 ^ 31) (ha : a.toNat < 2 ^ 31) :
    (tagOf d a).toNat = d.toNat * a.toNat % p := by
  unfold tagOf
  have hmul : d.toNat * a.toNat < 2 ^ 62 := by
    calc d.toNat * a.toNat < 2 ^ 31 * 2 ^ 31 := Nat.mul_lt_mul'' hd ha
      _ = 2 ^ 62 := by norm_num
  have e1 : (BitVec.setWidth 64 d).toNat = d.toNat := by
    rw [BitVec.toNat_setWidth]; omega
  have e2 : (BitVec.setWidth 64 a).toNat = a.toNat := by
    rw [BitVec.toNat_setWidth]; omega
  have e3 : (BitVec.setWidth 64 modP).toNat = 2147483647 := by
    rw [BitVec.toNat_setWidth, modP_toNat]
  rw [BitVec.toNat_setWidth, BitVec.toNat_umod, BitVec.toNat_mul, e1, e2, e3, p_val]
  have : d.toNat * a.toNat % 2 ^ 64 = d.toNat * a.toNat := Nat.mod_eq_of_lt (by omega)
  rw [this]
  have : d.toNat * a.toNat % 2147483647 < 2147483647 := Nat.mod_lt _ (by norm_num)
  omega

/-- Modular sum of two words below the modulus. -/
def msum (x y : U32) : Nat := (x.toNat + y.toNat) % p

theorem add_mod_toNat {x y : U32} (h : x.toNat + y.toNat < 2 ^ 32) : ((x + y) % modP).toNat = msum x y := by
  rw [BitVec.toNat_umod, BitVec.toNat_add, modP_toNat, msum, p_val, Nat.mod_eq_of_lt h]

/-- A loop that only checks. -/
theorem check_loop (n : Nat) (body : Nat → Unit → Res Unit) (h : ∀ i, i < n → body i () = ok ()) :
    forLoop n body () = ok () := by
  induction n with
  | zero => rfl
  | succ n ih =>
    rw [forLoop_succ, ih (fun i hi => h i (by omega))]
    exact h n (by omega)

theorem check_loop_ok (n : Nat) (body : Nat → Unit → Res Unit) (u : Unit)
    (h : forLoop n body u = ok ()) : ∀ i, i < n → body i () = ok () := by
  induction n with
  | zero => intro i hi; omega
  | succ n ih =>
    intro i hi
    rw [forLoop_succ, bind_eq_ok] at h
    obtain ⟨⟨⟩, h1, h2⟩ := h
    by_cases hin : i = n
    · subst hin; exact h2
    · exact ih h1 i (by omega)

theorem check_loop_if (n : Nat) (c : Nat → Prop) [DecidablePred c] (m : String) :
    forLoop n (fun i (_ : Unit) => if c i then err m else ok ()) () =
      if ∀ i, i < n → ¬ c i then ok () else err m := by
  induction n with
  | zero => simp [forLoop]
  | succ n ih =>
    rw [forLoop_succ, ih]
    by_cases h : ∀ i, i < n → ¬ c i
    · rw [if_pos h]
      simp only [ok_bind]
      by_cases hc : c n
      · rw [if_pos hc, if_neg (fun hh => hh n (by omega) hc)]
      · rw [if_neg hc, if_pos]
        intro i hi
        by_cases hin : i = n
        · subst hin; exact hc
        · exact h i (by omega)
    · have h' : ¬ ∀ i, i < n + 1 → ¬ c i := fun hh => h (fun i hi => hh i (by omega))
      rw [if_neg h, if_neg h']
      rfl

/-- Reconstruction of a counting query, for answers of the right length. -/
theorem reconstruct_count_le {ex : Nat} {st : State} {a0 a1 : List U32} (hex : 0 < ex)
    (hst : st.alphas.length = ex) (h0 : a0.length = ex) (h1 : ex ≤ a1.length) :
    reconstruct ex st [a0, a1] =
      if ∀ i, i < ex - 1 → ¬ tagOf ((a0.getD 0 0 + a1.getD 0 0) % modP) (st.alphas.getD i 0)
          ≠ (a0.getD (i + 1) 0 + a1.getD (i + 1) 0) % modP
      then ok ((a0.getD 0 0 + a1.getD 0 0) % modP) else err "REJECT" := by
  unfold reconstruct
  rw [idx_of_lt (l := [a0, a1]) (i := 0) (by simp), idx_of_lt (l := [a0, a1]) (i := 1) (by simp)]
  simp only [ok_bind, List.getElem_cons_zero, List.getElem_cons_succ]
  rw [if_neg (by omega), idx_getD 0 (by omega)]
  simp only [ok_bind]
  rw [idx_getD 0 (by omega)]
  simp only [ok_bind]
  rw [forLoop_congr (g := fun i (_ : Unit) => if tagOf ((a0.getD 0 0 + a1.getD 0 0) % modP) (st.alphas.getD i 0)
          ≠ (a0.getD (i + 1) 0 + a1.getD (i + 1) 0) % modP then err "REJECT" else ok ()), check_loop_if]
  · split <;> rfl
  · intro i u hi
    rw [idx_getD 0 (by omega), idx_getD 0 (by omega), idx_getD 0 (by omega)]
    rfl

theorem reconstruct_count_eq {ex : Nat} {st : State} {a0 a1 : List U32} (hex : 0 < ex)
    (hst : st.alphas.length = ex) (h0 : a0.length = ex) (h1 : a1.length = ex) :
    reconstruct ex st [a0, a1] =
      if ∀ i, i < ex - 1 → ¬ tagOf ((a0.getD 0 0 + a1.getD 0 0) % modP) (st.alphas.getD i 0)
          ≠ (a0.getD (i + 1) 0 + a1.getD (i + 1) 0) % modP
      then ok ((a0.getD 0 0 + a1.getD 0 0) % modP) else err "REJECT" :=
  reconstruct_count_le hex hst h0 h1.ge

/-- Reconstruction of an average, for answers of the right length. -/
theorem reconstruct_avg {ex : Nat} {st : State} {c0 s0 c1 s1 : List U32} (hex : 0 < ex)
    (hst : st.alphas.length = ex) (h0 : c0.length = ex) (h1 : c1.length = ex) (h2 : s0.length = ex)
    (h3 : s1.length = ex) :
    reconstruct ex st [c0 ++ s0, c1 ++ s1] = (do
      let _ ← forLoop (ex - 1) (fun i (_ : Unit) =>
        if tagOf ((c0.getD 0 0 + c1.getD 0 0) % modP) (st.alphas.getD i 0)
            ≠ (c0.getD (i + 1) 0 + c1.getD (i + 1) 0) % modP then err "REJECT count"
        else if tagOf ((s0.getD 0 0 + s1.getD 0 0) % modP) (st.alphas.getD i 0)
            ≠ (s0.getD (i + 1) 0 + s1.getD (i + 1) 0) % modP then err "REJECT sum" else ok ()) ()
      divU32 ((s0.getD 0 0 + s1.getD 0 0) % modP) ((c0.getD 0 0 + c1.getD 0 0) % modP)) := by
  unfold reconstruct
  rw [idx_of_lt (l := [c0 ++ s0, c1 ++ s1]) (i := 0) (by simp),
    idx_of_lt (l := [c0 ++ s0, c1 ++ s1]) (i := 1) (by simp)]
  simp only [ok_bind, List.getElem_cons_zero, List.getElem_cons_succ]
  rw [if_pos (by simp; omega)]
  have e1 : ∀ c s : List U32, c.length = ex → slice (c ++ s) 0 ex = ok c := by
    intro c s hc
    rw [slice_of_le (by omega) (by simp; omega)]
    simp [← hc]
  have e2 : ∀ c s : List U32, c.length = ex → slice (c ++ s) ex (c ++ s).length = ok s := by
    intro c s hc
    rw [slice_of_le (by simp; omega) (by omega)]
    simp [← hc]
  rw [e1 _ _ h0, e1 _ _ h1, e2 _ _ h0, e2 _ _ h1]
  simp only [ok_bind]
  rw [idx_getD 0 (by omega), idx_getD 0 (by omega), idx_getD 0 (by omega), idx_getD 0 (by omega)]
  simp only [ok_bind]
  congr 1
  apply forLoop_congr
  intro i u hi
  rw [idx_getD 0 (by omega), idx_getD 0 (by omega), idx_getD 0 (by omega)]
  simp only [ok_bind]
  split
  · rfl
  · rw [idx_getD 0 (by omega), idx_getD 0 (by omega)]
    rfl

/-! ### Averages -/

theorem weighted_toNat {t : U32} {w : Int} (ht : t.toNat ≤ p) (h0 : 0 ≤ w) (hw : w < 2 ^ 32) :
    ((t.setWidth 64 * BitVec.ofInt 64 w) % modP.setWidth 64 : U64).setWidth 32 =
      BitVec.ofNat 32 (t.toNat * w.toNat % p) := by
  apply BitVec.eq_of_toNat_eq
  have e1 : (BitVec.setWidth 64 t).toNat = t.toNat := by
    rw [BitVec.toNat_setWidth]; omega
  have e2 : (BitVec.ofInt 64 w).toNat = w.toNat := by
    rw [BitVec.toNat_ofInt]; omega
  have e3 : (BitVec.setWidth 64 modP).toNat = 2147483647 := by
    rw [BitVec.toNat_setWidth, modP_toNat]
  rw [p_val] at *
  have hmul : t.toNat * w.toNat < 2 ^ 63 := by
    calc t.toNat * w.toNat < 2 ^ 31 * 2 ^ 32 := Nat.mul_lt_mul'' (by omega) (by omega)
      _ = 2 ^ 63 := by norm_num
  rw [BitVec.toNat_setWidth, BitVec.toNat_umod, BitVec.toNat_mul, e1, e2, e3, BitVec.toNat_ofNat]
  rw [Nat.mod_eq_of_lt (a := t.toNat * w.toNat) (by omega)]

theorem accumulateAvg_eq {out sum tmp : List U32} (h : tmp.length = out.length) (hs : sum.length = out.length)
    (ho : ∀ j, (out.getD j 0).toNat < p) (hsu : ∀ j, (sum.getD j 0).toNat < p)
    (ht : ∀ j, (tmp.getD j 0).toNat ≤ p) {w : Int} (h0 : 0 ≤ w) (hw : w < 2 ^ 32) :
    ∃ o s, accumulateAvg out sum tmp w = ok (o, s) ∧ o.length = out.length ∧ s.length = out.length ∧
      ∀ j, j < out.length →
        (o.getD j 0).toNat = ((out.getD j 0).toNat + (tmp.getD j 0).toNat) % p ∧
        (s.getD j 0).toNat = ((sum.getD j 0).toNat + (tmp.getD j 0).toNat * w.toNat) % p := by
  have key := forLoop_inv (n := out.length) (s := (out, sum)) (body := fun j (s : List U32 × List U32) => do
      let o ← idx s.1 j
      let t ← idx tmp j
      let out ← setAt s.1 j ((o + t) % modP)
      let tmpYears : U64 := (t.setWidth 64 * BitVec.ofInt 64 w) % modP.setWidth 64
      let x ← idx s.2 j
      let sum ← setAt s.2 j ((x + tmpYears.setWidth 32) % modP)
      ok (out, sum))
    (fun i (o : List U32 × List U32) => o.1.length = out.length ∧ o.2.length = out.length ∧ ∀ j, o.1.getD j 0 =
      (if j < i then (out.getD j 0 + tmp.getD j 0) % modP else out.getD j 0) ∧ o.2.getD j 0 =
      (if j < i then (sum.getD j 0 + BitVec.ofNat 32 ((tmp.getD j 0).toNat * w.toNat % p)) % modP
        else sum.getD j 0)) ⟨rfl, hs, by simp⟩ (by
      rintro i ⟨o, s⟩ hi ⟨hl, hl2, hv⟩
      simp only at hl hl2 hv
      simp only
      rw [idx_getD 0 (by omega), idx_getD 0 (by omega)]
      simp only [ok_bind]
      rw [setAt_of_lt (by omega)]
      simp only [ok_bind]
      rw [idx_getD 0 (by omega)]
      simp only [ok_bind]
      rw [setAt_of_lt (by omega)]
      simp only [ok_bind]
      refine ⟨_, rfl, by simpa using hl, by simpa using hl2, ?_⟩
      intro j
      obtain ⟨hvi, hvi'⟩ := hv i
      obtain ⟨hvj, hvj'⟩ := hv j
      rw [if_neg (by omega)] at hvi hvi'
      by_cases hj : j = i
      · subst hj
        rw [if_pos (by omega), if_pos (by omega), hvi, hvi', weighted_toNat (ht _) h0 hw]
        constructor
        · rw [getD_of_lt _ (by simp; omega), List.getElem_set_self]
        · rw [getD_of_lt _ (by simp; omega), List.getElem_set_self]
      · have e1 : j < i + 1 ↔ j < i := by omega
        simp only [e1]
        rw [← hvj, ← hvj']
        simp only [List.getD_eq_getElem?_getD, List.getElem?_set_ne (Ne.symm hj), and_self])
  obtain ⟨⟨o, s⟩, e, hl, hl2, hv⟩ := key
  refine ⟨o, s, e, hl, hl2, ?_⟩
  intro j hj
  obtain ⟨v1, v2⟩ := hv j
  simp only at v1 v2
  rw [if_pos hj] at v1 v2
  rw [v1, v2]
  have h1 := ho j
  have h2 := ht j
  have h3 := hsu j
  have h4 : (tmp.getD j 0).toNat * w.toNat % p < p := Nat.mod_lt _ (by norm_num [p])
  constructor
  · rw [p_val] at *
    rw [BitVec.toNat_umod, BitVec.toNat_add, modP_toNat]
    omega
  · rw [← Nat.add_mod_mod]
    generalize (tmp.getD j 0).toNat * w.toNat % p = z at *
    rw [p_val] at *
    rw [BitVec.toNat_umod, BitVec.toNat_add, BitVec.toNat_ofNat, modP_toNat]
    omega

/-- The keys that contribute to an average, with their ages. -/
def aged (f : KeyInfo → Option (List Bool)) (g : KeyInfo → Int) (l : List KeyInfo) : List (List Bool × Nat) :=
  l.filterMap (fun ki => if g ki < 0 then none else (f ki).map (fun id => (id, (g ki).toNat)))

theorem avgLoop_eq {E : Cipher} {n : Nat} {env : Nat → Env} (henv : ∀ i, (env i).E = E) {sn : Byte}
    {now : Int} {nowi : Nat → Int} (hnow : ∀ i, nowi i = now)
    {db : KeyDB} (hdb : db.numColumns ≤ db.keys.length) {k : Key} {sel : KeyInfo → Res (Option (List Bool))}
    {f : KeyInfo → Option (List Bool)} (hsel : ∀ ki ∈ db.keys, sel ki = ok (f ki))
    (hage : ∀ ki ∈ db.keys, now - ki.creation.year < 2 ^ 32)
    {V : List Bool → Nat → Nat}
    (hV : ∀ id ∈ ids f (db.keys.take db.numColumns), EvalsTo E n k id (V id)) {buf : List Byte}
    (hbuf : BufferReady n buf) :
    ∃ acc sum, avgLoop env nowi sn db k sel ⟨List.replicate n 0, List.replicate n 0, buf⟩ (List.replicate n 0)
        = ok (acc, sum) ∧
      acc.out.length = n ∧ sum.length = n ∧ BufferReady n acc.buf ∧
      ∀ j, j < n → (acc.out.getD j 0).toNat =
        ((aged f (fun ki => now - ki.creation.year) (db.keys.take db.numColumns)).map
          (fun x => contrib sn (V x.1 j))).sum % p ∧
        (sum.getD j 0).toNat =
        ((aged f (fun ki => now - ki.creation.year) (db.keys.take db.numColumns)).map
          (fun x => contrib sn (V x.1 j) * x.2)).sum % p := by
  have key := forLoop_inv (n := db.numColumns)
    (s := ((⟨List.replicate n 0, List.replicate n 0, buf⟩ : Acc), List.replicate n (0 : U32)))
    (body := fun i (s : Acc × List U32) => do
    let ki ← idx db.keys i
    let id ← sel ki
    match id with
    | none => ok s
    | some id => do
      let (tmp, buf) ← evaluatePF (env i) s.1.buf sn k id s.1.tmp
      let diffYears := nowi i - ki.creation.year
      if diffYears < 0 then ok (⟨s.1.out, tmp, buf⟩, s.2)
      else do
        let (out, sum) ← accumulateAvg s.1.out s.2 tmp diffYears
        ok (⟨out, tmp, buf⟩, sum))
    (fun i (s : Acc × List U32) => s.1.out.length = n ∧ s.2.length = n ∧ s.1.tmp.length = n ∧
      BufferReady n s.1.buf ∧
      ∀ j, (s.1.out.getD j 0).toNat = (if j < n then
        ((aged f (fun ki => now - ki.creation.year) (db.keys.take i)).map
          (fun x => contrib sn (V x.1 j))).sum % p else 0) ∧
        (s.2.getD j 0).toNat = (if j < n then
        ((aged f (fun ki => now - ki.creation.year) (db.keys.take i)).map
          (fun x => contrib sn (V x.1 j) * x.2)).sum % p else 0))
    (by
      refine ⟨by simp, by simp, by simp, hbuf, ?_⟩
      intro j
      simp only [getD_replicate_zero]
      simp [aged])
    (by
      rintro i ⟨⟨out, tmp, b⟩, sum⟩ hi ⟨hl, hsl, htl, hb, hv⟩
      simp only at hl hsl htl hb hv
      have hik : i < db.keys.length := by omega
      rw [idx_of_lt hik]
      simp only [ok_bind]
      rw [hsel _ (List.getElem_mem hik)]
      simp only [ok_bind]
      have haged : aged f (fun ki => now - ki.creation.year) (db.keys.take (i + 1)) =
          aged f (fun ki => now - ki.creation.year) (db.keys.take i) ++
          (if now - db.keys[i].creation.year < 0 then none else
            (f db.keys[i]).map (fun id => (id, (now - db.keys[i].creation.year).toNat))).toList :=
        take_succ_filterMap _ db.keys i hik
      cases hf : f db.keys[i] with
      | none =>
        simp only
        refine ⟨_, rfl, hl, hsl, htl, hb, ?_⟩
        intro j
        rw [haged, hf]
        simpa using hv j
      | some id =>
        simp only
        have hmem : id ∈ ids f (db.keys.take db.numColumns) := by
          unfold ids
          rw [List.mem_filterMap]
          refine ⟨db.keys[i], ?_, hf⟩
          rw [List.mem_take_iff_getElem]
          exact ⟨i, by omega, rfl⟩
        obtain ⟨hlt, hev⟩ := hV id hmem
        obtain ⟨y, b', e, hb', hyl, hy⟩ := hev sn (env i) (henv i) b tmp htl hb
        rw [e]
        simp only [ok_bind, hnow i]
        have hp : 0 < p := by norm_num [p]
        by_cases hneg : now - db.keys[i].creation.year < 0
        · rw [if_pos hneg]
          refine ⟨_, rfl, hl, hsl, hyl, hb', ?_⟩
          intro j
          rw [haged, if_pos hneg]
          simpa using hv j
        · rw [if_neg hneg]
          obtain ⟨o, s, eo, hol, hsl', hov⟩ := accumulateAvg_eq (out := out) (sum := sum) (tmp := y)
            (w := now - db.keys[i].creation.year) (by omega) (by omega)
            (by intro j; rw [(hv j).1]; split
                · exact Nat.mod_lt _ hp
                · exact hp)
            (by intro j; rw [(hv j).2]; split
                · exact Nat.mod_lt _ hp
                · exact hp)
            (by
              intro j
              by_cases hj : j < n
              · rw [hy j hj]; exact contrib_le (hlt j)
              · rw [List.getD_eq_getElem?_getD, List.getElem?_eq_none (by omega)]
                simp)
            (by omega) (hage _ (List.getElem_mem hik))
          rw [eo]
          simp only [ok_bind]
          refine ⟨_, rfl, hol.trans hl, hsl'.trans hl, hyl, hb', ?_⟩
          intro j
          by_cases hj : j < n
          · obtain ⟨w1, w2⟩ := hov j (by omega)
            obtain ⟨v1, v2⟩ := hv j
            simp only
            rw [if_pos hj] at v1 v2
            rw [if_pos hj, if_pos hj, w1, w2, v1, v2, hy j hj, haged, hf, if_neg hneg]
            simp
          · simp only
            rw [if_neg hj, if_neg hj, List.getD_eq_getElem?_getD, List.getElem?_eq_none (by rw [hol]; omega),
              List.getD_eq_getElem?_getD, List.getElem?_eq_none (by rw [hsl']; omega)]
            simp)
  obtain ⟨⟨acc, sum⟩, e, hl, hsl, -, hb, hv⟩ := key
  refine ⟨acc, sum, e, hl, hsl, hb, ?_⟩
  intro j hj
  obtain ⟨v1, v2⟩ := hv j
  rw [if_pos hj] at v1 v2
  exact ⟨v1, v2⟩

/-- Adding up the two servers' weighted sums. -/
theorem wsums_add {L : List (List Bool × Nat)} {a : List Bool} {c : Nat} {V0 V1 : List Bool → Nat}
    (h : ∀ x ∈ L, (V0 x.1 + (p - V1 x.1)) % p = if x.1 = a then c % p else 0) (w : List Bool × Nat → Nat) :
    ((L.map (fun x => contrib 0 (V0 x.1) * w x)).sum + (L.map (fun x => contrib 1 (V1 x.1) * w x)).sum) % p
      = (((L.filter (fun x => x.1 = a)).map w).sum * c) % p := by
  induction L with
  | nil => simp
  | cons x L ih =>
    have hx := h x (by simp)
    have hL := ih (fun id hid => h id (by simp [hid]))
    have h0 : contrib 0 (V0 x.1) = V0 x.1 := by simp [contrib]
    have h1 : contrib 1 (V1 x.1) = p - V1 x.1 := by simp [contrib]
    simp only [List.map_cons, List.sum_cons, h0, h1]
    rw [show V0 x.1 * w x + (L.map (fun x => contrib 0 (V0 x.1) * w x)).sum
        + ((p - V1 x.1) * w x + (L.map (fun x => contrib 1 (V1 x.1) * w x)).sum)
        = (V0 x.1 + (p - V1 x.1)) * w x + ((L.map (fun x => contrib 0 (V0 x.1) * w x)).sum
          + (L.map (fun x => contrib 1 (V1 x.1) * w x)).sum) by ring]
    rw [Nat.add_mod, Nat.mul_mod, hx, hL]
    by_cases hxa : x.1 = a
    · rw [if_pos hxa, List.filter_cons_of_pos (by simpa using hxa), ← Nat.mul_mod, ← Nat.add_mod]
      simp only [List.map_cons, List.sum_cons]
      congr 1
      ring
    · rw [if_neg hxa, List.filter_cons_of_neg (by simpa using hxa)]
      simp

end Verif.Predicate
