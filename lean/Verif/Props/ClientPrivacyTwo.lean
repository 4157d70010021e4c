import Verif.Props.ClientPrivacy
import Verif.Spec.ClientPrivacy

/-! # C61: what each of two servers sees of a lookup

With two connections the clients use the distributed point function of a library. Its secrecy is an assumption about that
library; proved here is that nothing else can be learnt: each server sees one of the two keys for the column, and nothing but
that key. -/

namespace Verif.Client
open Res Verif.Cmd Verif.Pgp Verif.Pgp.Spec Verif.Query Verif.Client.Spec Verif.Point Verif.Point.Spec Verif.Privacy

theorem lookupQueries_two (L : Lib) (hh : HashLong L.hash) (dpf : Dpf) {info : Database.Info}
    (hpos : 0 < info.numRows * info.numColumns) (hN : info.numRows * info.numColumns < 2 ^ 32) (id : Str) :
    ∃ st : State, lookupQueries (withDpf L dpf) 2 info id =
      (dpf.gen (position L.hash (info.numRows * info.numColumns) id % info.numColumns) (bitsLen info.numColumns) >>=
        fun ks => ok ([ks.1, ks.2], st)) := by
  have hC : 0 < info.numColumns := by
    rcases Nat.eq_zero_or_pos info.numColumns with h | h
    · rw [h, Nat.mul_zero] at hpos; omega
    · exact h
  have hC32 : info.numColumns < 2 ^ 32 := by
    have hR : 0 < info.numRows := by
      rcases Nat.eq_zero_or_pos info.numRows with h | h
      · rw [h, Nat.zero_mul] at hpos; omega
      · exact h
    nlinarith
  have hi := hashToIndex_spec hh hpos hN id
  have hlt := position_lt L.hash hpos id
  generalize position L.hash (info.numRows * info.numColumns) id = p at *
  have hi' : hashToIndex (withDpf L dpf).hash id (info.numRows * info.numColumns) = ok p := hi
  unfold lookupQueries
  rw [hi', ok_bind]
  dsimp only
  unfold queryBytes
  have : getBE32 (putBE32 (BitVec.ofNat 32 p)) = ok (BitVec.ofNat 32 p) := by
    have := getBE32_put (BitVec.ofNat 32 p) []
    rwa [List.append_nil] at this
  rw [this, ok_bind, BitVec.toNat_ofNat, Nat.mod_eq_of_lt (by omega)]
  unfold query
  rw [show invalidQueryInputsIT (p : Int) ((2 : Nat) : Int) = false by simp [invalidQueryInputsIT]]
  rw [if_neg (by simp), indices _ _ hC, ok_bind]
  dsimp only
  rw [if_pos (by norm_num)]
  have hm := Nat.mod_lt p hC
  have hu : toU64 (((p % info.numColumns : Nat) : Int)) = p % info.numColumns := by
    unfold toU64
    omega
  rw [hu]
  exact ⟨_, rfl⟩

/-- Two connections: what the first of them and what the second sees. -/
theorem seenBy_two (L : Lib) (hh : HashLong L.hash) (dpf : Dpf) {info : Database.Info}
    (hpos : 0 < info.numRows * info.numColumns) (hN : info.numRows * info.numColumns < 2 ^ 32) {x y : String} (hxy : x ≠ y)
    (first : Bool) (id : Str) (D : Res (List (String × List Byte)) → ℚ) :
    D (seenBy (if first then x else y) (do
      let (queries, _) ← lookupQueries (withDpf L dpf) 2 info id
      sends [x, y] queries)) =
    keyTest (if first then x else y) D (oneKey first
      (dpf.gen (position L.hash (info.numRows * info.numColumns) id % info.numColumns) (bitsLen info.numColumns))) := by
  obtain ⟨st, h⟩ := lookupQueries_two L hh dpf hpos hN id
  rw [h]
  cases dpf.gen (position L.hash (info.numRows * info.numColumns) id % info.numColumns) (bitsLen info.numColumns) with
  | err m => rfl
  | crash m => rfl
  | ok ks =>
    obtain ⟨k0, k1⟩ := ks
    rw [ok_bind, ok_bind]
    dsimp only
    rw [sends_eq _ _ (by simp)]
    cases first with
    | true => simp [seenBy, oneKey, keyTest, hxy.symm]
    | false => simp [seenBy, oneKey, keyTest, hxy]

/-- C61 for two different addresses and the command line: a test applied to everything an address sees tells two e-mails apart
exactly as well as a test applied to one key of the distributed point function tells their columns apart. Which of the two keys an
address gets depends on the order in which the connections are enumerated. -/
theorem C61_command_line_two {Ω : Type} [Fintype Ω] (L : Lib) (hh : HashLong L.hash) (dpf : Ω → Dpf) (net : Net) (S : Schedule)
    (hS : Fair S) (addresses : List String) (hdial : ∀ a ∈ addresses, net.dial a = ok ()) {conns : List String}
    (hconn : connect net.dial addresses = ok conns) (h2 : conns.length = 2) (info : Database.Info)
    (hpos : 0 < info.numRows * info.numColumns) (hN : info.numRows * info.numColumns < 2 ^ 32) (a : String)
    (ha : a ∈ addresses) :
    ∃ first : Bool, ∀ (id id' : Str) (D : Res (List (String × List Byte)) → ℚ),
      advantage (fun ω => seenBy a (commandLineTraffic (withDpf L (dpf ω)) net S addresses info id))
        (fun ω => seenBy a (commandLineTraffic (withDpf L (dpf ω)) net S addresses info id')) D =
      advantage
        (fun ω => oneKey first ((dpf ω).gen (position L.hash (info.numRows * info.numColumns) id % info.numColumns)
          (bitsLen info.numColumns)))
        (fun ω => oneKey first ((dpf ω).gen (position L.hash (info.numRows * info.numColumns) id' % info.numColumns)
          (bitsLen info.numColumns))) (keyTest a D) := by
  obtain ⟨conns', h1, hnd, hmem⟩ := connect_spec hdial
  rw [hconn] at h1
  cases h1
  have hp := hS.conns conns
  have hl : (S.conns conns).length = 2 := by rw [hp.length_eq, h2]
  obtain ⟨x, y, hxy⟩ := List.length_eq_two.1 hl
  have hne : x ≠ y := by
    have := hp.nodup_iff.2 hnd
    rw [hxy] at this
    simpa using this
  have hax : a ∈ S.conns conns := hp.mem_iff.2 ((hmem a).2 ha)
  have ht : ∀ ω id, commandLineTraffic (withDpf L (dpf ω)) net S addresses info id = (do
      let (queries, _) ← lookupQueries (withDpf L (dpf ω)) 2 info id
      sends [x, y] queries) := by
    intro ω id
    unfold commandLineTraffic
    rw [hconn, ok_bind, h2, hxy]
  obtain ⟨first, hfirst⟩ : ∃ first : Bool, a = if first then x else y := by
    rw [hxy] at hax
    simp only [List.mem_cons, List.not_mem_nil, or_false] at hax
    rcases hax with h | h
    · exact ⟨true, h⟩
    · exact ⟨false, h⟩
  refine ⟨first, fun id id' D => ?_⟩
  unfold advantage
  simp only [ht, hfirst]
  simp only [seenBy_two L hh _ hpos hN hne first]

/-- The same for the interactive and the web client. -/
theorem C61_actor_two {Ω : Type} [Fintype Ω] (L : Lib) (hh : HashLong L.hash) (dpf : Ω → Dpf) (net : Net) {x y : String}
    (hne : x ≠ y) (hx : net.dial x = ok ()) (hy : net.dial y = ok ()) (info : Database.Info)
    (hpos : 0 < info.numRows * info.numColumns) (hN : info.numRows * info.numColumns < 2 ^ 32) (first : Bool) (id id' : Str)
    (D : Res (List (String × List Byte)) → ℚ) :
    advantage (fun ω => seenBy (if first then x else y) (actorTraffic (withDpf L (dpf ω)) net [x, y] info id))
      (fun ω => seenBy (if first then x else y) (actorTraffic (withDpf L (dpf ω)) net [x, y] info id')) D =
    advantage
      (fun ω => oneKey first ((dpf ω).gen (position L.hash (info.numRows * info.numColumns) id % info.numColumns)
        (bitsLen info.numColumns)))
      (fun ω => oneKey first ((dpf ω).gen (position L.hash (info.numRows * info.numColumns) id' % info.numColumns)
        (bitsLen info.numColumns))) (keyTest (if first then x else y) D) := by
  have hc : connectActor net.dial [x, y] = ok [x, y] := connectActor_spec (by
    intro a ha
    simp only [List.mem_cons, List.not_mem_nil, or_false] at ha
    rcases ha with rfl | rfl
    · exact hx
    · exact hy)
  have ht : ∀ ω id, actorTraffic (withDpf L (dpf ω)) net [x, y] info id = (do
      let (queries, _) ← lookupQueries (withDpf L (dpf ω)) 2 info id
      sends [x, y] queries) := by
    intro ω id
    unfold actorTraffic
    rw [hc, ok_bind]
    rfl
  unfold advantage
  simp only [ht]
  simp only [seenBy_two L hh _ hpos hN hne first]

/-- Consequently: if no test on a key tells columns apart by more than `ε`, no test on what an address sees tells e-mails apart
by more. -/
theorem C61_command_line_two_hidden {Ω : Type} [Fintype Ω] (L : Lib) (hh : HashLong L.hash) (dpf : Ω → Dpf) (net : Net)
    (S : Schedule) (hS : Fair S) (addresses : List String) (hdial : ∀ a ∈ addresses, net.dial a = ok ()) {conns : List String}
    (hconn : connect net.dial addresses = ok conns) (h2 : conns.length = 2) (info : Database.Info)
    (hpos : 0 < info.numRows * info.numColumns) (hN : info.numRows * info.numColumns < 2 ^ 32) (a : String)
    (ha : a ∈ addresses) (ε : ℚ)
    (hdpf : ∀ (first : Bool) (α β : Nat), α < info.numColumns → β < info.numColumns → ∀ B : Res (List Byte) → ℚ,
      advantage (fun ω => oneKey first ((dpf ω).gen α (bitsLen info.numColumns)))
        (fun ω => oneKey first ((dpf ω).gen β (bitsLen info.numColumns))) B ≤ ε)
    (id id' : Str) (D : Res (List (String × List Byte)) → ℚ) :
    advantage (fun ω => seenBy a (commandLineTraffic (withDpf L (dpf ω)) net S addresses info id))
      (fun ω => seenBy a (commandLineTraffic (withDpf L (dpf ω)) net S addresses info id')) D ≤ ε := by
  have hC : 0 < info.numColumns := by
    rcases Nat.eq_zero_or_pos info.numColumns with h | h
    · rw [h, Nat.mul_zero] at hpos; omega
    · exact h
  obtain ⟨first, h⟩ := C61_command_line_two L hh dpf net S hS addresses hdial hconn h2 info hpos hN a ha
  rw [h]
  exact hdpf first _ _ (Nat.mod_lt _ hC) (Nat.mod_lt _ hC) _

/-! ## Concrete cases -/

/-- A toy library for two columns that hides the column perfectly from either server: a random bit and its sum with the column. -/
def bitDpf (b : Bool) : Dpf where
  gen α _ := ok ([if b then 1 else 0], [if b != decide (α = 1) then 1 else 0])
  evalFull k _ := ok k

/-- The hypotheses of `C61_command_line_two_hidden` can be met, with nothing learnt at all. -/
example : (∀ (first : Bool) (α β : Nat), α < twoColumns.numColumns → β < twoColumns.numColumns → ∀ B : Res (List Byte) → ℚ,
      advantage (fun ω => oneKey first ((bitDpf ω).gen α (bitsLen twoColumns.numColumns)))
        (fun ω => oneKey first ((bitDpf ω).gen β (bitsLen twoColumns.numColumns))) B ≤ 0) ∧
    connect (honestNet plainDpf exDB).dial ["a", "b"] = ok ["a", "b"] ∧
    (∀ a ∈ ["a", "b"], (honestNet plainDpf exDB).dial a = ok ()) ∧
    0 < twoColumns.numRows * twoColumns.numColumns ∧ twoColumns.numRows * twoColumns.numColumns < 2 ^ 32 := by
  refine ⟨?_, rfl, fun _ _ => rfl, by decide, by decide⟩
  intro first α β hα hβ B
  have hα : α = 0 ∨ α = 1 := by simp [twoColumns] at hα; omega
  have hβ : β = 0 ∨ β = 1 := by simp [twoColumns] at hβ; omega
  cases first <;> rcases hα with rfl | rfl <;> rcases hβ with rfl | rfl <;>
    simp [advantage, avg, oneKey, bitDpf, add_comm]

end Verif.Client
