import Verif.Spec.CountStream
import Verif.Lemmas.Uniform
import Verif.Lemmas.Object
import Verif.Lemmas.History
import Verif.Lemmas.ForgeryMain
import Verif.Props.History

/-! # Sessions of predicate queries by one client object -/

namespace Verif.CountStream
open Res Verif.Rand Verif.Field Verif.Field.Spec Verif.Fss Verif.Fss.Spec Verif.Privacy Verif.Predicate Verif.History
  Verif.CountStream.Spec Verif.Uniform Verif.Forge Verif.Forge.Spec Verif.Reaction Finset

variable {I A V : Type}

/-! ### The keys -/

/-- The four MAC keys as a list. -/
def keyList (y : (Fin 3 → Fin p) × Fin p) : List U32 :=
  [BitVec.ofNat 32 (y.1 0).1, BitVec.ofNat 32 (y.1 1).1, BitVec.ofNat 32 (y.1 2).1, BitVec.ofNat 32 y.2.1]

theorem clientState_eq (y : (Fin 3 → Fin p) × Fin p) : clientState y.1 y.2 = ⟨keyList y ++ [0], 1 :: keyList y⟩ := rfl

theorem keyList_canonical (y : (Fin 3 → Fin p) × Fin p) : ∀ k ∈ keyList y, Canonical k := by
  intro k hk
  simp only [keyList, List.mem_cons, List.not_mem_nil, or_false] at hk
  rcases hk with rfl | rfl | rfl | rfl <;> (unfold Canonical; rw [mac_toNat]; exact Fin.is_lt _)

theorem ofNat_inj {x y : Fin p} (h : BitVec.ofNat 32 x.1 = BitVec.ofNat 32 y.1) : x = y := by
  have := congrArg BitVec.toNat h
  rw [mac_toNat, mac_toNat] at this
  exact Fin.ext this

theorem keyList_inj {y z : (Fin 3 → Fin p) × Fin p} (h : keyList y = keyList z) : y = z := by
  simp only [keyList, List.cons.injEq, and_true] at h
  obtain ⟨h0, h1, h2, h3⟩ := h
  refine Prod.ext (funext fun i => ?_) (ofNat_inj h3)
  fin_cases i
  · exact ofNat_inj h0
  · exact ofNat_inj h1
  · exact ofNat_inj h2

theorem keyList_surj {ks : List U32} (hl : ks.length = 4) (hc : ∀ k ∈ ks, Canonical k) : ∃ y, keyList y = ks := by
  match ks, hl with
  | [a, b, c, d], _ =>
    have ha := hc a (by simp)
    have hb := hc b (by simp)
    have hcc := hc c (by simp)
    have hd := hc d (by simp)
    refine ⟨(![⟨a.toNat, ha⟩, ⟨b.toNat, hb⟩, ⟨c.toNat, hcc⟩], ⟨d.toNat, hd⟩), ?_⟩
    simp [keyList]

theorem card_keys : (Fintype.card ((Fin 3 → Fin p) × Fin p) : ℚ) = (p : ℚ) ^ 4 := by
  rw [Fintype.card_prod, Fintype.card_fun, Fintype.card_fin, Fintype.card_fin]
  push_cast
  ring

/-- The mean over the generator when its bytes are random: the keys are uniform, except that with a small probability they are not
drawn. -/
theorem keys_mean (fuel : Nat) {Φ : Prg → ℚ} {K : (Fin 3 → Fin p) × Fin p → Prg → ℚ} {n0 : Nat}
    {c : (Fin 3 → Fin p) × Fin p → ℚ} {h : ℚ} (hK : ∀ y, HasMean (K y) n0 (c y))
    (hΦ : ∀ y g g', drawKeys fuel 5 g = ok (clientState y.1 y.2, g') → Φ g = K y g')
    (hΦ' : ∀ g, (∀ r, drawKeys fuel 5 g ≠ ok r) → Φ g = h) :
    HasMean Φ (fuel * 4 + n0) ((1 - fail fuel) ^ 4 * avg c + (1 - (1 - fail fuel) ^ 4) * h) := by
  have hconst : HasMean (fun _ => h) n0 h := fun rest pos n _ => avg_const _
  have e : ∀ g, Φ g =
      (∑ y : (Fin 3 → Fin p) × Fin p, afterList (drawList fuel (keyList y).length g) (fun r => if r = keyList y then 1 else 0)
        (K y)) + (h - afterList (drawList fuel 4 g) (fun _ => 1) (fun _ => h)) := by
    intro g
    have hlen : ∀ y, (keyList y).length = 4 := fun y => rfl
    simp only [hlen]
    have hk := drawKeys_eq fuel 5 (by norm_num) g
    simp only [show (5 - 1 : Nat) = 4 from rfl] at hk
    cases hd : drawList fuel 4 g with
    | ok r =>
      obtain ⟨ks, g1⟩ := r
      obtain ⟨hl, hc⟩ := drawList_length hd
      obtain ⟨y, rfl⟩ := keyList_surj hl hc
      rw [hd] at hk
      simp only [afterList]
      rw [Finset.sum_eq_single y, hΦ y g g1 hk]
      · rw [if_pos rfl]
        ring
      · intro z _ hz
        rw [if_neg (fun hh => hz (keyList_inj hh).symm)]
        ring
      · intro hh
        exact absurd (Finset.mem_univ _) hh
    | err m =>
      rw [hd] at hk
      rw [hΦ' g (fun r hr => by rw [hk] at hr; exact absurd hr (by simp))]
      simp [afterList]
    | crash m =>
      rw [hd] at hk
      rw [hΦ' g (fun r hr => by rw [hk] at hr; exact absurd hr (by simp))]
      simp [afterList]
  intro rest pos n hn
  rw [avg_congr (fun B => e _), ← Reaction.avg_add, Reaction.avg_sum, ← avg_sub, avg_const]
  have h1 : ∀ y : (Fin 3 → Fin p) × Fin p, avg (fun B : Fin n → Fin 16 → Byte =>
      afterList (drawList fuel (keyList y).length ⟨tape rest pos n B, pos⟩) (fun r => if r = keyList y then 1 else 0)
        (K y)) = ((1 - fail fuel) / p) ^ 4 * c y :=
    fun y => list_value fuel (keyList y) (keyList_canonical y) (hK y) rest pos n hn
  rw [Finset.sum_congr rfl (fun y _ => h1 y), list_done fuel 4 hconst rest pos n hn, ← Finset.mul_sum]
  unfold avg
  rw [card_keys]
  have hp0 : (p : ℚ) ≠ 0 := by norm_num [p]
  field_simp

theorem mean_avg {X : Type} [Fintype X] {K : X → Prg → ℚ} {n0 : Nat} {c : X → ℚ} (h : ∀ x, HasMean (K x) n0 (c x)) :
    HasMean (fun g => avg fun x => K x g) n0 (avg c) := by
  intro rest pos n hn
  rw [avg_comm]
  exact avg_congr fun x => h x rest pos n hn

theorem fail_nonneg (fuel : Nat) : 0 ≤ fail fuel := by unfold fail; positivity

theorem fail_le_one (fuel : Nat) : fail fuel ≤ 1 := by
  unfold fail
  rw [div_le_one (by positivity)]
  exact one_le_pow₀ (by norm_num)

theorem missing_bound (fuel : Nat) : 0 ≤ 1 - (1 - fail fuel) ^ 4 ∧ 1 - (1 - fail fuel) ^ 4 ≤ 4 * fail fuel ∧
    0 ≤ (1 - fail fuel) ^ 4 := by
  have h0 := fail_nonneg fuel
  have h1 := fail_le_one fuel
  refine ⟨?_, ?_, by positivity⟩
  · have : (1 - fail fuel) ^ 4 ≤ 1 := pow_le_one₀ (by linarith) (by linarith)
    linarith
  · have := one_add_mul_le_pow (a := -fail fuel) (by linarith) 4
    have e : (1 + -fail fuel) = 1 - fail fuel := by ring
    rw [e] at this
    push_cast at this
    linarith

/-! ### One query -/

/-- Two worlds that differ in the generator and the buffer only, and in which the query gives the same messages and keys. -/
def Alike (w w' : World) (q : Query.ClientFSS) : Prop :=
  w' = { w with rnd := w'.rnd, buf := w'.buf } ∧ ∃ ms st g o g' o',
    query w.env w.fuel 5 w.rnd w.buf w.r1 w.r2 q 2 = ok (ms, st, g, o) ∧
    query w'.env w'.fuel 5 w'.rnd w'.buf w'.r1 w'.r2 q 2 = ok (ms, st, g', o')

/-- The buffer after a query with the keys `y`. -/
def bufOf (W : World) (q : Query.ClientFSS) (y : (Fin 3 → Fin p) × Fin p) (x : Seeds) : List Byte :=
  match generateTreePF W.env W.buf (List.ofFn x.1 ++ [x.2.2]) (List.ofFn x.2.1) q.input (vals (shared y.1) y.2) with
  | ok (_, _, o) => o
  | _ => []

/-- If the client draws the keys `y`, everything goes as with a client that has these keys at hand. -/
theorem one_query {W : World} {mal : Bool} {e : U32} {fr : Nat → U32} (hS : Setup W mal e fr) (q : Query.ClientFSS) {g g' : Prg}
    {buf : List Byte} (hb : BufferReady 5 buf) (y : (Fin 3 → Fin p) × Fin p) (x : Seeds)
    (hd : drawKeys W.fuel 5 g = ok (clientState y.1 y.2, g')) :
    BufferReady 5 (bufOf W q y x) ∧ afterQuery (seeded W g buf x) q = ok (g', bufOf W q y x) ∧
      Alike (drawn W y.1 y.2 x.1 x.2.1 x.2.2) (seeded W g buf x) q := by
  obtain ⟨k0, k1, o, hg, -⟩ := keys_five hS.cipher hS.draw hS.canonical hS.buf q.input y.1 y.2 x.1 x.2.1 x.2.2
  have hg' : generateTreePF W.env buf (List.ofFn x.1 ++ [x.2.2]) (List.ofFn x.2.1) q.input (vals (shared y.1) y.2)
      = ok (k0, k1, o) := by
    rw [← hg]
    exact Object.generate_same hS.cipher hb hS.buf rfl (by norm_num)
  have hr := Object.generate_ready hS.cipher hb rfl hg'
  obtain ⟨rnd', hm⟩ := drawKeys_mac hS.fuel y.1 y.2
  have h1 : query W.env W.fuel 5 (macSource y.1 y.2) W.buf (List.ofFn x.1 ++ [x.2.2]) (List.ofFn x.2.1) q 2 =
      ok ([⟨q.info, k0⟩, ⟨q.info, k1⟩], clientState y.1 y.2, rnd', o) := by
    unfold query
    rw [if_neg (by simp), hm]
    simp only [ok_bind]
    rw [show (clientState y.1 y.2).a = vals (shared y.1) y.2 from rfl, hg]
    rfl
  have h2 : query W.env W.fuel 5 g buf (List.ofFn x.1 ++ [x.2.2]) (List.ofFn x.2.1) q 2 =
      ok ([⟨q.info, k0⟩, ⟨q.info, k1⟩], clientState y.1 y.2, g', o) := by
    unfold query
    rw [if_neg (by simp), hd]
    simp only [ok_bind]
    rw [show (clientState y.1 y.2).a = vals (shared y.1) y.2 from rfl, hg']
    rfl
  have ho : bufOf W q y x = o := by
    unfold bufOf
    rw [hg]
  rw [ho]
  refine ⟨hr, ?_, rfl, _, _, _, _, _, _, h1, h2⟩
  unfold afterQuery
  rw [show query (seeded W g buf x).env (seeded W g buf x).fuel 5 (seeded W g buf x).rnd (seeded W g buf x).buf
    (seeded W g buf x).r1 (seeded W g buf x).r2 q 2 = _ from h2]
  rfl

/-- If the client draws no keys, there is no query. -/
theorem no_query {W : World} (q : Query.ClientFSS) {g : Prg} (buf : List Byte) (x : Seeds)
    (hd : ∀ r, drawKeys W.fuel 5 g ≠ ok r) : ∀ r, afterQuery (seeded W g buf x) q ≠ ok r := by
  intro r h
  unfold afterQuery at h
  obtain ⟨r1, h1, -⟩ := bind_eq_ok.1 h
  unfold query at h1
  rw [if_neg (by simp)] at h1
  obtain ⟨r2, h2, -⟩ := bind_eq_ok.1 h1
  exact hd r2 h2

/-! ### Sessions -/

/-- The coins of one query as the seeds and the MAC keys. -/
theorem avg_coins (f : (Fin 3 → Fin p) × Fin p → Seeds → ℚ) :
    avg (fun x : Seeds => avg fun y => f y x) = runMean (fun β α s0 s1 tb => f (β, α) (s0, s1, tb)) := by
  unfold runMean
  have e : ∀ x : Seeds, avg (fun y => f y x) = avg (fun β : Fin 3 → Fin p => avg fun α : Fin p => f (β, α) x) :=
    fun x => avg_prod' _
  rw [avg_congr e, avg_comm]
  refine avg_congr fun β => ?_
  rw [avg_prod']
  refine avg_congr fun s0 => ?_
  rw [avg_prod']

variable {W : World} {mal : Bool} {e : U32} {fr : Nat → U32} {ask : I → Query.ClientFSS} {see : World → I → A → V}
  {wrong : World → I → A → Prop}

/-- A session in which the keys are not drawn with the probability `1 - f`. -/
noncomputable def mixed (W : World) (see : World → I → A → V) (S : Server I A V) (hang : List V → ℚ) (right : Bool) (f : ℚ) :
    Nat → List V → ℚ
  | 0, past => S.decide past
  | n + 1, past => f * runMean (fun β α s0 s1 tb => mixed W see S hang right f n
      (past ++ [see (drawn W β α s0 s1 tb) ((S.choose past).asked right) (S.choose past).answer])) + (1 - f) * hang past

theorem decides_mean (hS : Setup W mal e fr) (hsee : ∀ w w' i a, Alike w w' (ask i) → see w i a = see w' i a) (S : Server I A V)
    (hang : List V → ℚ) (right : Bool) : ∀ n past buf, BufferReady 5 buf →
      HasMean (fun g => decides W ask see S hang right n past g buf) (W.fuel * 4 * n)
        (mixed W see S hang right ((1 - fail W.fuel) ^ 4) n past) := by
  intro n
  induction n with
  | zero =>
    intro past buf _ rest pos n _
    exact avg_const _
  | succ n ih =>
    intro past buf hb
    have step : ∀ x : Seeds, HasMean (fun g =>
        match afterQuery (seeded W g buf x) (ask ((S.choose past).asked right)) with
        | ok (g', buf') => decides W ask see S hang right n
            (past ++ [see (seeded W g buf x) ((S.choose past).asked right) (S.choose past).answer]) g' buf'
        | _ => hang past) (W.fuel * 4 + W.fuel * 4 * n)
        ((1 - fail W.fuel) ^ 4 * avg (fun y : (Fin 3 → Fin p) × Fin p => mixed W see S hang right ((1 - fail W.fuel) ^ 4) n
          (past ++ [see (drawn W y.1 y.2 x.1 x.2.1 x.2.2) ((S.choose past).asked right) (S.choose past).answer]))
          + (1 - (1 - fail W.fuel) ^ 4) * hang past) := by
      intro x
      refine keys_mean W.fuel (K := fun y g' => decides W ask see S hang right n
        (past ++ [see (drawn W y.1 y.2 x.1 x.2.1 x.2.2) ((S.choose past).asked right) (S.choose past).answer]) g'
          (bufOf W (ask ((S.choose past).asked right)) y x)) (fun y => ih _ _ ?_) ?_ ?_
      · obtain ⟨r, hr⟩ := drawKeys_mac hS.fuel y.1 y.2
        exact (one_query hS _ hS.buf y x hr).1
      · intro y g g' hd
        obtain ⟨-, h1, h2⟩ := one_query hS (ask ((S.choose past).asked right)) hb y x hd
        rw [h1, hsee _ _ _ _ h2]
      · intro g hd
        have := no_query (W := W) (ask ((S.choose past).asked right)) buf x hd
        split
        · rename_i h
          exact absurd h (this _)
        · rfl
    intro rest pos m hm
    have := mean_avg step rest pos m (by nlinarith)
    refine Eq.trans this ?_
    rw [← Reaction.avg_add, avg_scale, avg_const, mixed]
    refine congrArg₂ (· + ·) (congrArg₂ (· * ·) rfl ?_) rfl
    exact avg_coins (fun y x => mixed W see S hang right ((1 - fail W.fuel) ^ 4) n
      (past ++ [see (drawn W y.1 y.2 x.1 x.2.1 x.2.2) ((S.choose past).asked right) (S.choose past).answer]))

/-- What a server sees of a query of a client with the draws `x`. -/
noncomputable def seesDraw (W : World) (see : World → I → A → V) (i : I) (a : A) (x : Draw) : V := see (drawnBy W x) i a

theorem mixed_close (S : Server I A V) (hD : IsTest S.decide) {hang : List V → ℚ} (hH : IsTest hang) (right : Bool) {f : ℚ}
    (h0 : 0 ≤ f) (h1 : f ≤ 1) : ∀ n past, |mixed W see S hang right f n past - session (seesDraw W see) S right n past|
      ≤ n * (1 - f) := by
  intro n
  induction n with
  | zero => intro past; simp [mixed, session]
  | succ n ih =>
    intro past
    have e1 : mixed W see S hang right f (n + 1) past = f * avg (fun x : Draw => mixed W see S hang right f n
        (past ++ [seesDraw W see ((S.choose past).asked right) (S.choose past).answer x])) + (1 - f) * hang past := by
      rw [mixed]
      refine congrArg₂ (· + ·) (congrArg₂ (· * ·) rfl (avg_draw (fun β α s0 s1 tb => mixed W see S hang right f n
        (past ++ [see (drawn W β α s0 s1 tb) ((S.choose past).asked right) (S.choose past).answer]))).symm) rfl
    have e2 : session (seesDraw W see) S right (n + 1) past = avg (fun x : Draw => session (seesDraw W see) S right n
        (past ++ [seesDraw W see ((S.choose past).asked right) (S.choose past).answer x])) := rfl
    have h2 := abs_avg_sub_le (fun x : Draw => ih (past ++ [seesDraw W see ((S.choose past).asked right) (S.choose past).answer x]))
    rw [avg_const] at h2
    have h3 := session_test (seesDraw W see) S hD right (n + 1) past
    rw [e2] at h3 ⊢
    rw [e1]
    have h4 := hH past
    rw [abs_le] at h2 ⊢
    push_cast
    have hn : (0 : ℚ) ≤ n := Nat.cast_nonneg n
    constructor <;> nlinarith

/-- A session in which the keys are not drawn with the probability `1 - f`. -/
noncomputable def mixedWrong (W : World) (see : World → I → A → V) (wrong : World → I → A → Prop) (S : Server I A V) (f : ℚ) :
    Nat → List V → ℚ
  | 0, _ => 0
  | n + 1, past => f * runMean (fun β α s0 s1 tb =>
      open Classical in if wrong (drawn W β α s0 s1 tb) (S.choose past).left (S.choose past).answer then 1 else
      mixedWrong W see wrong S f n (past ++ [see (drawn W β α s0 s1 tb) (S.choose past).left (S.choose past).answer]))

theorem goesWrong_mean (hS : Setup W mal e fr) (hsee : ∀ w w' i a, Alike w w' (ask i) → see w i a = see w' i a)
    (hwr : ∀ w w' i a, Alike w w' (ask i) → (wrong w i a ↔ wrong w' i a)) (S : Server I A V) :
    ∀ n past buf, BufferReady 5 buf →
      HasMean (fun g => goesWrong W ask see wrong S n past g buf) (W.fuel * 4 * n)
        (mixedWrong W see wrong S ((1 - fail W.fuel) ^ 4) n past) := by
  classical
  intro n
  induction n with
  | zero =>
    intro past buf _ rest pos n _
    exact avg_const _
  | succ n ih =>
    intro past buf hb
    have step : ∀ x : Seeds, HasMean (fun g =>
        match afterQuery (seeded W g buf x) (ask (S.choose past).left) with
        | ok (g', buf') => if wrong (seeded W g buf x) (S.choose past).left (S.choose past).answer then 1
            else goesWrong W ask see wrong S n (past ++ [see (seeded W g buf x) (S.choose past).left (S.choose past).answer]) g' buf'
        | _ => 0) (W.fuel * 4 + W.fuel * 4 * n)
        ((1 - fail W.fuel) ^ 4 * avg (fun y : (Fin 3 → Fin p) × Fin p =>
          if wrong (drawn W y.1 y.2 x.1 x.2.1 x.2.2) (S.choose past).left (S.choose past).answer then 1 else
          mixedWrong W see wrong S ((1 - fail W.fuel) ^ 4) n
          (past ++ [see (drawn W y.1 y.2 x.1 x.2.1 x.2.2) (S.choose past).left (S.choose past).answer]))
          + (1 - (1 - fail W.fuel) ^ 4) * 0) := by
      intro x
      refine keys_mean W.fuel (K := fun y g' =>
        if wrong (drawn W y.1 y.2 x.1 x.2.1 x.2.2) (S.choose past).left (S.choose past).answer then 1 else
        goesWrong W ask see wrong S n
        (past ++ [see (drawn W y.1 y.2 x.1 x.2.1 x.2.2) (S.choose past).left (S.choose past).answer]) g'
          (bufOf W (ask (S.choose past).left) y x)) (fun y => ?_) ?_ ?_
      · by_cases hw : wrong (drawn W y.1 y.2 x.1 x.2.1 x.2.2) (S.choose past).left (S.choose past).answer
        · simp only [if_pos hw]
          exact fun rest pos n _ => avg_const _
        · simp only [if_neg hw]
          obtain ⟨r, hr⟩ := drawKeys_mac hS.fuel y.1 y.2
          exact ih _ _ (one_query hS _ hS.buf y x hr).1
      · intro y g g' hd
        obtain ⟨-, h1, h2⟩ := one_query hS (ask (S.choose past).left) hb y x hd
        rw [h1, hsee _ _ _ _ h2]
        simp only [hwr _ _ _ _ h2]
      · intro g hd
        have := no_query (W := W) (ask (S.choose past).left) buf x hd
        split
        · rename_i h
          exact absurd h (this _)
        · rfl
    intro rest pos m hm
    have := mean_avg step rest pos m (by nlinarith)
    refine Eq.trans ?_ (this.trans ?_)
    · rfl
    · rw [← Reaction.avg_add, avg_scale, avg_const, mixedWrong, mul_zero, add_zero]
      refine congrArg₂ (· * ·) rfl ?_
      exact avg_coins (fun y x => if wrong (drawn W y.1 y.2 x.1 x.2.1 x.2.2) (S.choose past).left (S.choose past).answer then 1 else
          mixedWrong W see wrong S ((1 - fail W.fuel) ^ 4) n
          (past ++ [see (drawn W y.1 y.2 x.1 x.2.1 x.2.2) (S.choose past).left (S.choose past).answer]))

theorem mixedWrong_le (S : Server I A V) {f : ℚ} (h0 : 0 ≤ f) (h1 : f ≤ 1) :
    ∀ n past, 0 ≤ mixedWrong W see wrong S f n past ∧ mixedWrong W see wrong S f n past ≤
      everWrong (seesDraw W see) (fun i a x => wrong (drawnBy W x) i a) S n past := by
  classical
  intro n
  induction n with
  | zero => intro past; simp [mixedWrong, everWrong]
  | succ n ih =>
    intro past
    have e1 : mixedWrong W see wrong S f (n + 1) past = f * avg (fun x : Draw =>
        if wrong (drawnBy W x) (S.choose past).left (S.choose past).answer then 1 else mixedWrong W see wrong S f n
        (past ++ [seesDraw W see (S.choose past).left (S.choose past).answer x])) := by
      rw [mixedWrong]
      refine congrArg₂ (· * ·) rfl ?_
      exact (avg_draw (fun β α s0 s1 tb => if wrong (drawn W β α s0 s1 tb) (S.choose past).left (S.choose past).answer then 1 else
        mixedWrong W see wrong S f n
        (past ++ [see (drawn W β α s0 s1 tb) (S.choose past).left (S.choose past).answer]))).symm
    have hn : 0 ≤ avg (fun x : Draw =>
        if wrong (drawnBy W x) (S.choose past).left (S.choose past).answer then 1 else mixedWrong W see wrong S f n
        (past ++ [seesDraw W see (S.choose past).left (S.choose past).answer x])) :=
      avg_nonneg fun x => by split; exacts [zero_le_one, (ih _).1]
    have hle := avg_mono (f := fun x : Draw =>
        if wrong (drawnBy W x) (S.choose past).left (S.choose past).answer then 1 else mixedWrong W see wrong S f n
        (past ++ [seesDraw W see (S.choose past).left (S.choose past).answer x]))
      (g := fun x : Draw => if wrong (drawnBy W x) (S.choose past).left (S.choose past).answer then 1 else
        everWrong (seesDraw W see) (fun i a x => wrong (drawnBy W x) i a) S n
        (past ++ [seesDraw W see (S.choose past).left (S.choose past).answer x])) (fun x => by
        split
        · exact le_rfl
        · exact (ih _).2)
    rw [e1]
    refine ⟨mul_nonneg h0 hn, ?_⟩
    refine le_trans (mul_le_of_le_one_left hn h1) (le_trans hle (le_of_eq ?_))
    rfl

/-! ### What depends on the messages and keys only -/

theorem forgedRun_alike {w w' : World} {q : Query.ClientFSS} (h : Alike w w' q) (db : KeyDB) (inOrder mal : Bool)
    (F : Msg → Res (List Byte)) : forgedRun w db q inOrder mal F = forgedRun w' db q inOrder mal F := by
  obtain ⟨e, ms, st, g, o, g', o', h1, h2⟩ := h
  have hs : ∀ sn m, w'.serve sn 5 db m = w.serve sn 5 db m := by
    intro sn m
    rw [e]
    rfl
  unfold forgedRun
  rw [h1, h2]
  simp only [ok_bind, hs]

theorem view_alike {w w' : World} {q : Query.ClientFSS} (h : Alike w w' q) (db : KeyDB) (inOrder mal : Bool)
    (F : Msg → Res (List Byte)) : view w db q inOrder mal F = view w' db q inOrder mal F := by
  unfold view
  rw [forgedRun_alike h]
  obtain ⟨e, ms, st, g, o, g', o', h1, h2⟩ := h
  rw [h1, h2]
  rfl

/-! ### The two bounds -/

theorem session_le (hS : Setup W mal e fr) (hsee : ∀ w w' i a, Alike w w' (ask i) → see w i a = see w' i a) {S : Server I A V}
    (hD : IsTest S.decide) {hang : List V → ℚ} (hH : IsTest hang) {n : Nat} {cost : ℚ}
    (hc : telling (seesDraw W see) S n ≤ cost) (rest : Nat → Byte) (pos : Nat) {N : Nat} (hN : W.fuel * 4 * n ≤ N) :
    |decision rest pos N W ask see S hang false n - decision rest pos N W ask see S hang true n| ≤ cost + 8 * n * fail W.fuel := by
  unfold decision
  rw [decides_mean hS hsee S hang false n [] W.buf hS.buf rest pos N hN,
    decides_mean hS hsee S hang true n [] W.buf hS.buf rest pos N hN]
  obtain ⟨m0, m1, m2⟩ := missing_bound W.fuel
  have a1 := mixed_close (W := W) (see := see) S hD hH false m2 (by linarith) n []
  have a2 := mixed_close (W := W) (see := see) S hD hH true m2 (by linarith) n []
  unfold telling at hc
  have hn : (0 : ℚ) ≤ n := Nat.cast_nonneg n
  have m3 : (n : ℚ) * (1 - (1 - fail W.fuel) ^ 4) ≤ n * (4 * fail W.fuel) := mul_le_mul_of_nonneg_left m1 hn
  rw [abs_le] at a1 a2 hc ⊢
  constructor <;> linarith [a1.1, a1.2, a2.1, a2.2, hc.1, hc.2]

theorem wrong_le (hS : Setup W mal e fr) (hsee : ∀ w w' i a, Alike w w' (ask i) → see w i a = see w' i a)
    (hwr : ∀ w w' i a, Alike w w' (ask i) → (wrong w i a ↔ wrong w' i a)) {S : Server I A V} {n : Nat} {cost : ℚ}
    (hc : everWrong (seesDraw W see) (fun i a x => wrong (drawnBy W x) i a) S n [] ≤ cost) (rest : Nat → Byte) (pos : Nat) {N : Nat}
    (hN : W.fuel * 4 * n ≤ N) : wrongPart rest pos N W ask see wrong S n ≤ cost := by
  unfold wrongPart
  rw [goesWrong_mean hS hsee hwr S n [] W.buf hS.buf rest pos N hN]
  obtain ⟨m0, m1, m2⟩ := missing_bound W.fuel
  exact le_trans (mixedWrong_le S m2 (by linarith) n []).2 hc

end Verif.CountStream
