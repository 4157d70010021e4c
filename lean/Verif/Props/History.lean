import Verif.Lemmas.History
import Verif.Props.PointPrivacy
import Verif.Props.ReactionDh
import Verif.Props.ReactionLwe
import Verif.Props.ReactionPredicate

/-! # C95, C96: any number of lookups

C95: a server that has a client do one lookup after the other, of things the server itself proposes, that answers each in its own
way and sees how the client takes it, tells two such clients apart at most by the sum of what the single lookups reveal. C96: the
same for the chance that one of the lookups ends with a wrong result. -/

namespace Verif.History
open Verif.Privacy Verif.Reaction

variable {I A V Ω : Type} [Fintype Ω]

/-- C95, C96: if the cost of a lookup is bounded, the expected sum of the costs is bounded by the number of lookups times this
bound. -/
theorem C95_number_of_lookups (see : I → A → Ω → V) (S : Server I A V) (cost : Choice I A → (V → ℚ) → ℚ) (c : ℚ) (h0 : 0 ≤ c)
    (hc : ∀ m past, cost (S.choose past) (fun v => session see S true m (past ++ [v])) ≤ c) (n : Nat) :
    total see S cost n [] ≤ n * c := total_le see S cost c h0 hc n []

end Verif.History

/-! ### Multi-server lookups -/

namespace Verif.Point
open Res Verif.Database Verif.Privacy Verif.Reaction Verif.History Verif.Point.Spec

/-- What all servers but number `m` of `n` receive for a lookup of index `i`. -/
def coalitionView (dpf : Dpf) (info : Info) (n m i : Nat) (r : List Byte) : Res (List (List Byte)) := do
  let (qs, _) ← query dpf (fun _ => ok r) info i n
  ok (qs.eraseIdx m)

theorem coalitionView_eq (dpf : Dpf) {info : Info} {n m i i' : Nat} {r : List Byte} (hC : 0 < info.numColumns) (hn2 : n ≠ 2)
    (hm : m < n) (hr : r.length = (n - 1) * (info.numColumns / 8 + 1)) :
    coalitionView dpf info n m i r = coalitionView dpf info n m i' (shift (info.numColumns / 8 + 1) m
      (unitDiff (info.numColumns / 8 + 1) (i % info.numColumns) (i' % info.numColumns)) r) := by
  unfold coalitionView
  rw [query_fixed dpf hC (by omega) hn2 hr, query_fixed dpf hC (by omega) hn2 (by simpa using hr)]
  simp only [ok_bind]
  congr 1
  exact shares_shift hr (by omega)

/-- The change of the random string, on strings of fixed length. -/
def shiftFn {N : Nat} (L m : Nat) (D : List Byte) (r : Fin N → Byte) (p : Fin N) : Byte :=
  (shift L m D (List.ofFn r)).getD p 0

theorem ofFn_shiftFn {N : Nat} (L m : Nat) (D : List Byte) (r : Fin N → Byte) :
    List.ofFn (shiftFn L m D r) = shift L m D (List.ofFn r) := by
  apply List.ext_getElem (by simp)
  intro k h1 h2
  simp only [List.getElem_ofFn]
  unfold shiftFn
  rw [List.getD_eq_getElem?_getD, List.getElem?_eq_getElem h2]
  rfl

theorem shiftFn_shiftFn {N : Nat} (L m : Nat) (D : List Byte) (r : Fin N → Byte) :
    shiftFn L m D (shiftFn L m D r) = r := by
  apply List.ofFn_injective
  rw [ofFn_shiftFn, ofFn_shiftFn, shift_shift]

/-- C95 for multi-server lookups: all servers but one, working together, learn nothing at all from any number of lookups. -/
theorem C95_lookups (dpf : Dpf) (info : Info) (n m : Nat) (hC : 0 < info.numColumns) (hn2 : n ≠ 2) (hm : m < n)
    (S : Server Nat Unit (Res (List (List Byte)))) (hD : IsTest S.decide) (lookups : Nat) :
    telling (fun i _ (r : Fin ((n - 1) * (info.numColumns / 8 + 1)) → Byte) => coalitionView dpf info n m i (List.ofFn r)) S
      lookups = 0 := by
  have h := session_close (fun i _ (r : Fin ((n - 1) * (info.numColumns / 8 + 1)) → Byte) =>
    coalitionView dpf info n m i (List.ofFn r)) S hD (fun _ _ => 0) (fun _ => True) (fun _ => trivial) (by
      intro c D _ _
      unfold advantage
      have he := avg_equiv (Ω := Fin ((n - 1) * (info.numColumns / 8 + 1)) → Byte)
        (Ω' := Fin ((n - 1) * (info.numColumns / 8 + 1)) → Byte)
        ⟨shiftFn (info.numColumns / 8 + 1) m
            (unitDiff (info.numColumns / 8 + 1) (c.left % info.numColumns) (c.right % info.numColumns)),
          shiftFn (info.numColumns / 8 + 1) m
            (unitDiff (info.numColumns / 8 + 1) (c.left % info.numColumns) (c.right % info.numColumns)),
          shiftFn_shiftFn _ _ _, shiftFn_shiftFn _ _ _⟩
        (fun r => D (coalitionView dpf info n m c.right (List.ofFn r)))
      rw [← he]
      have hcongr : avg (fun r : Fin ((n - 1) * (info.numColumns / 8 + 1)) → Byte =>
            D (coalitionView dpf info n m c.left (List.ofFn r))) =
          avg (fun r : Fin ((n - 1) * (info.numColumns / 8 + 1)) → Byte => D (coalitionView dpf info n m c.right (List.ofFn
            (shiftFn (info.numColumns / 8 + 1) m
              (unitDiff (info.numColumns / 8 + 1) (c.left % info.numColumns) (c.right % info.numColumns)) r)))) := by
        apply avg_congr
        intro r
        rw [ofFn_shiftFn, coalitionView_eq dpf (i' := c.right) hC hn2 hm (by simp)]
      rw [hcongr]
      simp) lookups []
  have ht := total_le (fun i _ (r : Fin ((n - 1) * (info.numColumns / 8 + 1)) → Byte) =>
    coalitionView dpf info n m i (List.ofFn r)) S (fun _ _ => 0) 0 (le_refl _) (fun _ _ => le_refl _) lookups []
  rw [mul_zero] at ht
  exact le_antisymm (le_trans h ht) (abs_nonneg _)

/-- Servers 0 and 1 of three ask for 0 or 1, and after a message beginning with 7 for 1 or 0. -/
example := C95_lookups plainDpf exDB.info 3 2 (by decide) (by decide) (by decide)
  ⟨fun past => if past.getLast? = some (ok [[7], [7]]) then ⟨1, 0, ()⟩ else ⟨0, 1, ()⟩,
    fun past => if past.length = 5 then 1 else 0⟩ (by intro past; dsimp only; split <;> norm_num) 5

end Verif.Point

/-! ### The group scheme -/

namespace Verif.Dh
open Res Finset Verif.Privacy Verif.Reaction Verif.Dh.Spec Verif.History

variable {G : Type} [AddCommGroup G] [DecidableEq G]

/-- C95 for the group scheme: the server proposes the indices of every lookup and answers it as it likes, depending on all it has
seen, messages and endings. -/
theorem C95_dh {Ω T : Type} [Fintype Ω] [Fintype T] [Fintype G] (g : Grp G) (db : Elliptic) (hd : Decodes g)
    (hcom : Committed g db)
    (hfull : ∀ i, i < db.info.numRows → (g.enc (rowSum db (hashIndexToGroup g) i)).length = db.info.elementSize)
    (hC : 0 < db.info.numColumns) (hC64 : db.info.numColumns ≤ 2 ^ 64)
    (r : Ω → Int) (t : T → Int) (ε : ℚ) (hε : Spread g db.info.numColumns t ε)
    (S : Server Nat (List Byte → Res (List Byte)) (Res (List Byte) × Res Unit)) (hD : IsTest S.decide) (n : Nat) :
    telling (fun k F (x : T × Ω) => view g db.info F k (r x.2) (t x.1)) S n ≤
      total (fun k F (x : T × Ω) => view g db.info F k (r x.2) (t x.1)) S (leak g db r t ε) n [] := by
  refine telling_le hD (fun _ => True) (fun _ => trivial) ?_ n
  intro c D _ hD
  exact C86_reaction_hides g db hd hcom hfull hC hC64 c.answer r t ε hε c.left c.right D hD

/-- C96 for the group scheme. -/
theorem C96_dh {Ω T : Type} [Fintype Ω] [Fintype T] [Fintype G] (g : Grp G) (db : Elliptic) (hd : Decodes g)
    (hsz : FixedSize g db.info.elementSize ∨ ShortIdentity g db.info.elementSize) (hcom : Committed g db)
    (hC : db.info.numColumns ≤ 2 ^ 63) (r : Ω → Int) (t : T → Int) (ε : ℚ) (hε : Spread g db.info.numColumns t ε)
    (S : Server Nat (List Byte → Res (List Byte)) (Res (List Byte) × Res Unit))
    (hS : ∀ past, (S.choose past).left < db.info.numRows * db.info.numColumns) (n : Nat) :
    everWrong (fun k F (x : T × Ω) => view g db.info F k (r x.2) (t x.1))
        (fun k F x => ∃ b, retrieved g db.info F k (r x.2) (t x.1) = ok b ∧
          b ≠ if db.entries.getD k 0 = 1 then 1 else 0) S n [] ≤
      total (fun k F (x : T × Ω) => view g db.info F k (r x.2) (t x.1)) S (fun c _ => forge g db r t ε c) n [] := by
  refine everWrong_bound (fun c => c.left < db.info.numRows * db.info.numColumns) hS ?_ n
  intro c hc
  exact C87_wrong_bit g db hd hsz hcom hC c.answer r t ε hε c.left hc

/-- Ten lookups from a group of five elements and a database of two rows and two columns; the server repeats the last message. -/
example := C95_dh (Ω := Fin 5) shortGroup twoRows shortGroup_decodes twoRows_committed (by decide) (by decide) (by decide)
  (fun r => r.val) _ _ (C86_spread shortGroup 2 (by decide) shortGroup_generators)
  ⟨fun past => ⟨past.length % 4, 2, fun q => ((past.getLast?.map Prod.fst).getD (ok q))⟩,
    fun past => if past.getLast? = some (ok [2, 3, 2, 2], ok ()) then 1 else 0⟩ (by intro past; dsimp only; split <;> norm_num) 10

example := C96_dh (Ω := Fin 5) shortGroup twoRows shortGroup_decodes (Or.inr shortGroup_short) twoRows_committed (by decide)
  (fun r => r.val) _ _ (C86_spread shortGroup 2 (by decide) shortGroup_generators)
  ⟨fun past => ⟨past.length % 4, 2, fun _ => ok [2, 4, 2, 3]⟩, fun _ => 0⟩ (by
    intro past
    exact Nat.mod_lt _ (by decide)) 10

end Verif.Dh

/-! ### The LWE schemes -/

namespace Verif.Lwe
open Res Finset Verif.Matrix Verif.Privacy Verif.Reaction Verif.Lwe.Spec Verif.History

/-- C95 for the 32-bit LWE scheme. -/
theorem C95_lwe32 {Ω T : Type} [Fintype Ω] [Fintype T] (aesctr : List Byte → Nat → Byte) (p : Params)
    (hB : 0 < p.b.toNat) (db : Db 32) (tB : T → List Byte) (sB : Ω → List Byte) (noise : Ω → List Int)
    (hs : ∀ τ ω, Setup lwe32 aesctr p db ⟨tB τ, sB ω, noise ω⟩) (ε : ℚ)
    (hε : Spread (fun τ => wordAt 32 4 (tB τ) 0) ε)
    (S : Server Nat (List Byte → Res (List Byte)) (Res (List Byte) × Res Unit)) (hD : IsTest S.decide)
    (hS : ∀ past, (S.choose past).left < db.numRows * db.numColumns ∧ (S.choose past).right < db.numRows * db.numColumns)
    (n : Nat) :
    telling (fun i F (x : T × Ω) => view lwe32 aesctr p db F i ⟨tB x.1, sB x.2, noise x.2⟩) S n ≤
      total (fun i F (x : T × Ω) => view lwe32 aesctr p db F i ⟨tB x.1, sB x.2, noise x.2⟩) S
        (leak lwe32 aesctr p db id (p.b.toNat - 1) (p.b.toNat - 1) (2 * p.b.toNat - 2) tB sB noise ε) n [] := by
  refine telling_le hD (fun c => c.left < db.numRows * db.numColumns ∧ c.right < db.numRows * db.numColumns) hS ?_ n
  intro c D hc hD
  exact C88_reaction_hides32 aesctr p hB db tB sB noise hs c.answer ε hε c.left c.right hc.1 hc.2 D hD

/-- C96 for the 32-bit LWE scheme. -/
theorem C96_lwe32 {Ω T : Type} [Fintype Ω] [Fintype T] (aesctr : List Byte → Nat → Byte) (p : Params)
    (hB : 0 < p.b.toNat) (db : Db 32) (tB : T → List Byte) (sB : Ω → List Byte) (noise : Ω → List Int)
    (hs : ∀ τ ω, Setup lwe32 aesctr p db ⟨tB τ, sB ω, noise ω⟩) (ε : ℚ)
    (hε : Spread (fun τ => wordAt 32 4 (tB τ) 0) ε)
    (S : Server Nat (List Byte → Res (List Byte)) (Res (List Byte) × Res Unit))
    (hS : ∀ past, (S.choose past).left < db.numRows * db.numColumns) (n : Nat) :
    everWrong (fun i F (x : T × Ω) => view lwe32 aesctr p db F i ⟨tB x.1, sB x.2, noise x.2⟩)
        (fun i F x => ∃ b, retrieve lwe32 aesctr p db.numColumns db.digest ⟨tB x.1, sB x.2, noise x.2⟩ i F = ok b ∧
          b ≠ BitVec.ofNat 32 (storedBit db.matrix (i / db.numColumns) (i % db.numColumns))) S n [] ≤
      total (fun i F (x : T × Ω) => view lwe32 aesctr p db F i ⟨tB x.1, sB x.2, noise x.2⟩) S (fun c _ =>
        forge lwe32 aesctr p db id (p.b.toNat - 1) (p.b.toNat - 1) (2 * p.b.toNat - 2) tB sB noise ε c) n [] := by
  refine everWrong_bound (fun c => c.left < db.numRows * db.numColumns) hS ?_ n
  intro c hc
  exact C89_wrong_bit32 aesctr p hB db tB sB noise hs c.answer ε hε c.left hc

/-- C95 for the 128-bit LWE scheme. -/
theorem C95_lwe128 {Ω T : Type} [Fintype Ω] [Fintype T] (aesctr : List Byte → Nat → Byte) (p : Params)
    (hB : p.b.toNat < 2 ^ 32 - 1) (db : Db 128) (tB : T → List Byte) (sB : Ω → List Byte) (noise : Ω → List Int)
    (hs : ∀ τ ω, Setup lwe128 aesctr p db ⟨tB τ, sB ω, noise ω⟩) (ε : ℚ)
    (hε : Spread (fun τ => wordAt 128 16 (tB τ) 0) ε)
    (S : Server Nat (List Byte → Res (List Byte)) (Res (List Byte) × Res Unit)) (hD : IsTest S.decide)
    (hS : ∀ past, (S.choose past).left < db.numRows * db.numColumns ∧ (S.choose past).right < db.numRows * db.numColumns)
    (n : Nat) :
    telling (fun i F (x : T × Ω) => view lwe128 aesctr p db F i ⟨tB x.1, sB x.2, noise x.2⟩) S n ≤
      total (fun i F (x : T × Ω) => view lwe128 aesctr p db F i ⟨tB x.1, sB x.2, noise x.2⟩) S
        (leak lwe128 aesctr p db noise128 (p.b.toNat + 1) (p.b.toNat - 1) (2 * p.b.toNat) tB sB noise ε) n [] := by
  refine telling_le hD (fun c => c.left < db.numRows * db.numColumns ∧ c.right < db.numRows * db.numColumns) hS ?_ n
  intro c D hc hD
  exact C88_reaction_hides128 aesctr p hB db tB sB noise hs c.answer ε hε c.left c.right hc.1 hc.2 D hD

/-- C96 for the 128-bit LWE scheme. -/
theorem C96_lwe128 {Ω T : Type} [Fintype Ω] [Fintype T] (aesctr : List Byte → Nat → Byte) (p : Params)
    (hB : p.b.toNat < 2 ^ 32 - 1) (db : Db 128) (tB : T → List Byte) (sB : Ω → List Byte) (noise : Ω → List Int)
    (hs : ∀ τ ω, Setup lwe128 aesctr p db ⟨tB τ, sB ω, noise ω⟩) (ε : ℚ)
    (hε : Spread (fun τ => wordAt 128 16 (tB τ) 0) ε)
    (S : Server Nat (List Byte → Res (List Byte)) (Res (List Byte) × Res Unit))
    (hS : ∀ past, (S.choose past).left < db.numRows * db.numColumns) (n : Nat) :
    everWrong (fun i F (x : T × Ω) => view lwe128 aesctr p db F i ⟨tB x.1, sB x.2, noise x.2⟩)
        (fun i F x => ∃ b, retrieve lwe128 aesctr p db.numColumns db.digest ⟨tB x.1, sB x.2, noise x.2⟩ i F = ok b ∧
          b ≠ BitVec.ofNat 32 (storedBit db.matrix (i / db.numColumns) (i % db.numColumns))) S n [] ≤
      total (fun i F (x : T × Ω) => view lwe128 aesctr p db F i ⟨tB x.1, sB x.2, noise x.2⟩) S (fun c _ =>
        forge lwe128 aesctr p db noise128 (p.b.toNat + 1) (p.b.toNat - 1) (2 * p.b.toNat) tB sB noise ε c) n [] := by
  refine everWrong_bound (fun c => c.left < db.numRows * db.numColumns) hS ?_ n
  intro c hc
  exact C89_wrong_bit128 aesctr p hB db tB sB noise hs c.answer ε hε c.left hc

/-- Uniform secrets and multipliers, noise of plus or minus one and a database of three rows and columns meet the hypotheses. -/
example (aesctr : List Byte → Nat → Byte) : ∃ db : Db 32, db.numRows = 3 ∧ db.numColumns = 3 ∧
    ∀ τ ω, Setup lwe32 aesctr (paramsWithDatabaseSize 3 3) db
      ⟨(fun x : Fin 4 → Byte => List.ofFn x) τ, (fun x : (Fin 4400 → Byte) × (Fin 3 → Bool) => List.ofFn x.1) ω,
        (fun x : (Fin 4400 → Byte) × (Fin 3 → Bool) => List.ofFn (fun r => if x.2 r then 1 else -1)) ω⟩ := by
  obtain ⟨⟨db, hs, hr, hc⟩, -⟩ := setup_exists aesctr 3 3 [0b10110101, 1] (by decide) (by decide) (by decide)
    ⟨[], [], [1, 1, 1]⟩ (by decide) (by decide)
  have hno : ∀ x : Fin 3 → Bool, (List.ofFn (fun r => if x r then (1 : Int) else -1)).length = 3 ∧
      ∀ g ∈ List.ofFn (fun r => if x r then (1 : Int) else -1), |g| ≤ 128 := by decide
  exact ⟨db, hr, hc, fun τ ω => ⟨hs.valid, hs.params, hs.digest, hs.fits, by rw [hr]; exact (hno ω.2).1, (hno ω.2).2⟩⟩

/-- A server of this database proposes the lookups 2 and 7 by turns. -/
example (aesctr : List Byte → Nat → Byte) (db : Db 32) (hr : db.numRows = 3) (hc : db.numColumns = 3)
    (hs : ∀ τ ω, Setup lwe32 aesctr (paramsWithDatabaseSize 3 3) db
      ⟨(fun x : Fin 4 → Byte => List.ofFn x) τ, (fun x : (Fin 4400 → Byte) × (Fin 3 → Bool) => List.ofFn x.1) ω,
        (fun x : (Fin 4400 → Byte) × (Fin 3 → Bool) => List.ofFn (fun r => if x.2 r then 1 else -1)) ω⟩)
    (F : List (Res (List Byte) × Res Unit) → List Byte → Res (List Byte)) (D : List (Res (List Byte) × Res Unit) → ℚ)
    (hD : IsTest D) :=
  C95_lwe32 aesctr (paramsWithDatabaseSize 3 3) (by decide) db _ _ _ hs _ C88_spread32
    ⟨fun past => if past.length % 2 = 0 then ⟨2, 7, F past⟩ else ⟨7, 2, F past⟩, D⟩ hD (by
      intro past
      rw [hr, hc]
      dsimp only
      split <;> norm_num) 10

end Verif.Lwe

/-! ### Count queries -/

namespace Verif.Forge.Spec
open Res Verif.Field Verif.Field.Spec Verif.Fss Verif.Fss.Spec Verif.Predicate Verif.Predicate.Spec Verif.Privacy Verif.Reaction
  Verif.History Finset

/-- The client's randomness for a count query: the MAC keys, the seeds, the control byte and the last element. -/
abbrev Draw : Type := (Fin 3 → Fin p) × (Fin 16 → Byte) × (Fin 16 → Byte) × Byte × Fin p

/-- A client that draws `x`. -/
noncomputable def drawnBy (W : World) (x : Draw) : World := drawn W x.1 x.2.2.2.2 x.2.1 x.2.2.1 x.2.2.2.1

/-- A count query with the predicate it stands for. -/
abbrev Question : Type := Query.ClientFSS × (KeyInfo → Prop)

/-- How a lying server answers a count query, and the order in which the messages were handed out. -/
abbrev Manner : Type := Bool × (Msg → Res (List Byte))

/-- What one count query can reveal (C92). -/
noncomputable def leak (W : World) (db : KeyDB) (mal : Bool) (e : U32) (fr : Nat → U32) (c : Choice Question Manner)
    (D : Res Msg × Res Unit → ℚ) : ℚ :=
  keyGap W.env.E e (mal == c.answer.1) c.left.1.input (seeTest W db c.left.1.info mal c.answer.2 D)
    + keyGap W.env.E e (mal == c.answer.1) c.right.1.input (seeTest W db c.left.1.info mal c.answer.2 D)
    + forgeGap (settingOf W db c.left.1 c.answer.1 mal e fr (fun _ _ => 1)) (wordsOf c.left.1 c.answer.2)
    + forgeGap (settingOf W db c.right.1 c.answer.1 mal e fr (fun _ _ => 1)) (wordsOf c.right.1 c.answer.2)
    + failProb W db c.left.1 c.answer.1 (due c.answer.1 (numMatching db c.left.2))
    + failProb W db c.right.1 c.answer.1 (due c.answer.1 (numMatching db c.right.2))
    + 10 / 2 ^ 31 + 1728 / (p : ℚ) ^ 3

/-- The chance of forging one count (C84). -/
noncomputable def forge (W : World) (db : KeyDB) (mal : Bool) (e : U32) (fr : Nat → U32) (c : Choice Question Manner) : ℚ :=
  forgeGap (settingOf W db c.left.1 c.answer.1 mal e fr (fun _ _ => 1)) (wordsOf c.left.1 c.answer.2) + 864 / (p : ℚ) ^ 3

end Verif.Forge.Spec

namespace Verif.Forge
open Res Verif.Field Verif.Field.Spec Verif.Fss Verif.Fss.Spec Verif.Privacy Verif.Predicate Verif.Predicate.Spec
  Verif.Reaction Verif.Forge.Spec Verif.History Finset

theorem avg_draw (G : (Fin 3 → Fin p) → Fin p → (Fin 16 → Byte) → (Fin 16 → Byte) → Byte → ℚ) :
    avg (fun x : Draw => G x.1 x.2.2.2.2 x.2.1 x.2.2.1 x.2.2.2.1) = runMean G := by
  unfold runMean
  rw [avg_prod']
  refine avg_congr fun β => ?_
  rw [avg_prod']
  refine avg_congr fun s0 => ?_
  rw [avg_prod']
  refine avg_congr fun s1 => ?_
  rw [avg_prod']

/-- C95 for count queries: one of the two servers proposes the queries, of the same public part and the same length, lays down the
order in which the messages are handed out, and answers with five words, none above 2^32 minus the modulus. -/
theorem C95_counts (W : World) (db : KeyDB) (mal : Bool) (e e' : U32) (fr fr' : Nat → U32) (hh : ∀ t, (W.hash t).length = 32)
    (hS : Setup W mal e fr) (hS' : Setup W (!mal) e' fr') (hdb : Loaded db) (mk : Int → Query.Time)
    (S : Server Question Manner (Res Msg × Res Unit)) (hD : IsTest S.decide)
    (hq : ∀ past, Asks W.hash mk db (S.choose past).left.1 (S.choose past).left.2 ∧
      Asks W.hash mk db (S.choose past).right.1 (S.choose past).right.2 ∧
      (S.choose past).left.1.info = (S.choose past).right.1.info ∧
      (S.choose past).left.1.input.length = (S.choose past).right.1.input.length ∧
      ∀ m b, (S.choose past).answer.2 m = ok b → WellFormed b) (n : Nat) :
    telling (fun q a x => view (drawnBy W x) db q.1 a.1 mal a.2) S n ≤
      total (fun q a x => view (drawnBy W x) db q.1 a.1 mal a.2) S (leak W db mal e fr) n [] := by
  refine telling_le hD (fun c => Asks W.hash mk db c.left.1 c.left.2 ∧ Asks W.hash mk db c.right.1 c.right.2 ∧
      c.left.1.info = c.right.1.info ∧ c.left.1.input.length = c.right.1.input.length ∧
      ∀ m b, c.answer.2 m = ok b → WellFormed b) hq ?_ n
  rintro c D ⟨h1, h2, h3, h4, h5⟩ hD
  have h := C92_reaction W db c.left.1 c.right.1 mal c.answer.1 e e' fr fr' c.answer.2 D hh hS hS' hdb mk c.left.2 c.right.2 h1 h2 h3
    h4 h5 hD
  unfold viewProb at h
  rw [← avg_draw, ← avg_draw] at h
  exact h

theorem forgeProb_eq (W : World) (db : KeyDB) (q : Query.ClientFSS) (inOrder mal : Bool) (F : Msg → Res (List Byte))
    (Bad : Nat → Prop) : forgeProb W db q inOrder mal F Bad =
      avg (fun x : Draw => indicator (∃ r, forgedRun (drawnBy W x) db q inOrder mal F = ok r ∧ Bad r.toNat)) := by
  unfold forgeProb
  rw [← avg_draw]
  refine avg_congr fun x => ?_
  split
  · rename_i h
    exact (indicator_true h).symm
  · rename_i h
    exact (indicator_false h).symm

/-- C96 for count queries: no well-formedness is needed. -/
theorem C96_counts (W : World) (db : KeyDB) (mal : Bool) (e : U32) (fr : Nat → U32) (hh : ∀ t, (W.hash t).length = 32)
    (hS : Setup W mal e fr) (hdb : Loaded db) (mk : Int → Query.Time)
    (S : Server Question Manner (Res Msg × Res Unit))
    (hq : ∀ past, Asks W.hash mk db (S.choose past).left.1 (S.choose past).left.2) (n : Nat) :
    everWrong (fun q a x => view (drawnBy W x) db q.1 a.1 mal a.2)
        (fun q a x => ∃ r, forgedRun (drawnBy W x) db q.1 a.1 mal a.2 = ok r ∧ r.toNat ≠ due a.1 (numMatching db q.2)) S n [] ≤
      total (fun q a x => view (drawnBy W x) db q.1 a.1 mal a.2) S (fun c _ => forge W db mal e fr c) n [] := by
  refine everWrong_bound (fun c => Asks W.hash mk db c.left.1 c.left.2) hq ?_ n
  intro c hc
  have h := C84_count_forged W db c.left.1 mal c.answer.1 e fr c.answer.2 hh hS hdb mk c.left.2 hc
  rw [forgeProb_eq] at h
  exact h

/-- A server that proposes the queries for RSA keys and for DSA keys by turns. -/
noncomputable def byTurns (D : List (Res Msg × Res Unit) → ℚ) : Server Question Manner (Res Msg × Res Unit) where
  choose past :=
    if past.length % 2 = 0 then
      ⟨(exQuery, fun ki => ki.algo.toNat = 1), (dsaQuery, fun ki => ki.algo.toNat = 17), (true, firstByte)⟩
    else ⟨(dsaQuery, fun ki => ki.algo.toNat = 17), (exQuery, fun ki => ki.algo.toNat = 1), (false, firstByte)⟩
  decide := D

theorem byTurns_asks (D : List (Res Msg × Res Unit) → ℚ) (hash : List Byte → List Byte) (db : KeyDB)
    (past : List (Res Msg × Res Unit)) :
    Asks hash Query.dayTime db ((byTurns D).choose past).left.1 ((byTurns D).choose past).left.2 ∧
      Asks hash Query.dayTime db ((byTurns D).choose past).right.1 ((byTurns D).choose past).right.2 ∧
      ((byTurns D).choose past).left.1.info = ((byTurns D).choose past).right.1.info ∧
      ((byTurns D).choose past).left.1.input.length = ((byTurns D).choose past).right.1.input.length ∧
      ∀ m b, ((byTurns D).choose past).answer.2 m = ok b → WellFormed b := by
  unfold byTurns
  dsimp only
  split
  · exact ⟨exQuery_asks _ _, dsaQuery_asks _ _, rfl, rfl, firstByte_wellFormed⟩
  · exact ⟨dsaQuery_asks _ _, exQuery_asks _ _, rfl, rfl, firstByte_wellFormed⟩

/-- The hypotheses of C95 are met by this server. -/
example (D : List (Res Msg × Res Unit) → ℚ) (hD : IsTest D) (n : Nat) :
    telling (fun q a x => view (drawnBy (world parityCipher 5 10 10) x) exDB q.1 a.1 true a.2) (byTurns D) n ≤
      total (fun q a x => view (drawnBy (world parityCipher 5 10 10) x) exDB q.1 a.1 true a.2) (byTurns D)
        (leak (world parityCipher 5 10 10) exDB true 0 (fun _ => 1)) n [] :=
  C95_counts (world parityCipher 5 10 10) exDB true 0 0 (fun _ => 1) (fun _ => 2) exHash_length
    (world_setup _ parityCipher_block 10 10 true) (world_setup _ parityCipher_block 10 10 false) rfl Query.dayTime
    (byTurns D) hD (byTurns_asks D _ _) n

end Verif.Forge
