import Verif.Props.Deploy

/-! # C57: where a lookup does not return the newest key of the dump -/

namespace Verif.Pgp
open Res Verif.Pgp.Spec Verif.Database Verif.Merkle Verif.Merkle.Spec Verif.Padding Verif.Point Verif.Point.Spec
  Verif.MerklePir Verif.Layout

/-- C57 as claimed: after importing a dump, writing it to disk, splitting it into files and building the plain database from
them, looking up an e-mail address that has a key that is not revoked gives its newest one, without subkeys. -/
def C57_Statement : Prop :=
  ∀ (lower : Str → Str) (dump : List (List Entity)) (ser : Entity → List Byte)
    (worder : List (Str × Entity) → List (Str × Entity)) (_ : Enumerates worder)
    (H : List Byte → List Byte) (hash : Str → List Byte) (_ : HashLong hash)
    (sort : List Key → List Key) (_ : SortsById sort) (order : Orders) (_ : OrdersFair order) (rebalanced : Bool)
    (dpf : Dpf) (read : Nat → Res (List Byte)) (_ : Delivers read) (mode n : Nat) (_ : ServersFit dpf mode n)
    (readRing : List Byte → Res (List Entity)) (armor : Entity → Res (List Byte)),
    ∃ m keys, analyzeKeyDump lower (dump.map ok) = ok m ∧ writeKeysOnDisk (fun e => ok (ser e)) worder m = ok keys ∧
      ((∀ es : List Entity, es ≠ [] → (∀ e ∈ es, ∃ email, (email, e) ∈ m) → readRing (es.flatMap ser) = ok es) →
        ∀ chunks : List (List Key), chunks.flatten.Perm keys → keys.length ≤ 2 ^ 32 →
        ∃ loaded, loadKeysFromDisk (chunks.map ok) = ok loaded ∧
          ∀ email e, email ≠ [] → Newest lower dump.flatten email e →
            ∃ db, generateRealKeyBytes hash sort order loaded rebalanced = ok db ∧
              getKey H dpf read hash lower readRing armor mode db n email = armor { e with subkeys := [] })

/-- C57: a newest key of more than 8192 bytes is lost, and with it every older key of the address: the lookup ends with an
error or a panic. -/
theorem C57_large_key_lost (lower : Str → Str) (dump : List (List Entity)) (ser : Entity → List Byte)
    (worder : List (Str × Entity) → List (Str × Entity)) (hw : Enumerates worder)
    (H : List Byte → List Byte) (hash : Str → List Byte) (hh : HashLong hash)
    (sort : List Key → List Key) (hs : SortsById sort) (order : Orders) (ho : OrdersFair order) (rebalanced : Bool)
    (dpf : Dpf) (read : Nat → Res (List Byte)) (hread : Delivers read) (mode n : Nat) (hfit : ServersFit dpf mode n)
    (readRing : List Byte → Res (List Entity)) (armor : Entity → Res (List Byte)) :
    ∃ m keys, analyzeKeyDump lower (dump.map ok) = ok m ∧ writeKeysOnDisk (fun e => ok (ser e)) worder m = ok keys ∧
      ((∀ es : List Entity, es ≠ [] → (∀ e ∈ es, ∃ email, (email, e) ∈ m) → readRing (es.flatMap ser) = ok es) →
        ∀ chunks : List (List Key), chunks.flatten.Perm keys → 10 ≤ keys.length → keys.length ≤ 2 ^ 32 →
        ∃ loaded db, loadKeysFromDisk (chunks.map ok) = ok loaded ∧
          generateRealKeyBytes hash sort order loaded rebalanced = ok db ∧
          ∀ email e, Newest lower dump.flatten email e → 8192 < (ser { e with subkeys := [] }).length →
            ∀ a, getKey H dpf read hash lower readRing armor mode db n email ≠ ok a) := by
  obtain ⟨m, keys, hm, hk, hkn, hrest⟩ := stored_from_dump lower dump ser worder hw readRing
  refine ⟨m, keys, hm, hk, ?_⟩
  intro hring chunks hch h10 h32
  obtain ⟨parse, hP, hN, hfrom, -⟩ := hrest hring
  have hlen := hch.length_eq
  have hP' : Parses readRing parse chunks.flatten := fun ks hne hks => hP ks hne (fun k hk => hch.mem_iff.mp (hks k hk))
  have hN' : NamedBy lower parse chunks.flatten := fun k hk => hN k (hch.mem_iff.mp hk)
  obtain ⟨db, hdb, -⟩ := C14_filed_partial hash hh sort hs order ho chunks.flatten rebalanced (by omega) (by omega)
  refine ⟨_, db, load_ok chunks, hdb, ?_⟩
  intro email e hnew hbig a hget
  have habs : ∀ k ∈ chunks.flatten, k.id ≠ email := by
    intro k hkm he
    obtain ⟨e0, h1, h2, -, -, h3⟩ := hfrom k (hch.mem_iff.mp hkm)
    rw [he] at h1
    rw [h2, newest_unique h1 hnew] at h3
    omega
  obtain ⟨h1, h2⟩ := C16_absent_partial H hash hh sort hs order ho chunks.flatten rebalanced (by omega) (by omega) dpf read
    hread mode n hfit lower readRing parse hP' hN' armor db hdb email habs
  by_cases hc : ∃ k ∈ chunks.flatten, position hash (db.info.numRows * db.info.numColumns) k.id =
      position hash (db.info.numRows * db.info.numColumns) email
  · rw [h1 hc] at hget
    cases hget
  · have := h2 (fun k hk he => hc ⟨k, hk, he⟩)
    rw [hget] at this
    simp at this

/-- C57 as claimed is false: a dump with a single key is enough, since no database can be built from fewer than ten. -/
theorem C57_refuted : ¬ C57_Statement := by
  intro h
  have hfit : ServersFit ⟨fun _ _ => ok ([], []), fun _ _ => ok []⟩ 0 1 := Or.inl ⟨rfl, by decide, by decide⟩
  obtain ⟨m, keys, h1, h2, h3⟩ := h id [[entityOf [7, 1]]] exSer List.reverse List.reverse_perm (fun s => s) lengthHash
    lengthHash_long sortDesc sortDesc_sorts reversed reversed_fair false _ sevens sevens_delivers 0 1 hfit ringOfBytes
    (fun e => ok e.primary)
  have hm : m = [([7, 1], entityOf [7, 1])] := by
    have : analyzeKeyDump id ([[entityOf [7, 1]]].map ok) = ok [([7, 1], entityOf [7, 1])] := by decide
    rw [this] at h1
    exact (ok.inj h1).symm
  subst hm
  have hk : keys = [⟨[7, 1], [7]⟩] := by
    have : writeKeysOnDisk (fun e => ok (exSer e)) List.reverse [([7, 1], entityOf [7, 1])] = ok [⟨[7, 1], [7]⟩] := by decide
    rw [this] at h2
    exact (ok.inj h2).symm
  subst hk
  obtain ⟨loaded, h4, h5⟩ := h3 (by
    intro es hne hes
    clear hne
    unfold ringOfBytes
    congr 1
    induction es with
    | nil => rfl
    | cons e es ih =>
      obtain ⟨email, he⟩ := hes e (by simp)
      simp only [List.mem_singleton, Prod.mk.injEq] at he
      rw [List.flatMap_cons, List.map_append, ih (fun x hx => hes x (List.mem_cons_of_mem _ hx)), he.2]
      rfl) [[⟨[7, 1], [7]⟩]] (List.Perm.refl _) (by decide)
  have hl : loaded = [⟨[7, 1], [7]⟩] := by
    have := load_ok [[(⟨[7, 1], [7]⟩ : Key)]]
    rw [this] at h4
    exact (ok.inj h4).symm
  subst hl
  obtain ⟨db, h6, -⟩ := h5 [7, 1] (entityOf [7, 1]) (by simp)
    ⟨[], [], rfl, ⟨rfl, Or.inl ⟨by decide, rfl⟩⟩, by simp, by simp⟩
  have := (C14_few_keys_crash id fnv1a lengthHash lengthHash_long sortDesc sortDesc_sorts reversed [⟨[7, 1], [7]⟩] false
    (by simp) (by simp)).1
  rw [h6] at this
  simp at this

/-- A serialisation under which one of the keys of the dump of twenty is too large. -/
def bigSer (e : Entity) : List Byte := if e.primary = [3, 1] then List.replicate 9000 3 else exSer e

/-- The hypotheses of `C57_large_key_lost` about the keys: nineteen are stored, and the address of the twentieth has a newest
key, which is too large. -/
example : ∃ m keys, analyzeKeyDump id (exDump.map ok) = ok m ∧
    writeKeysOnDisk (fun e => ok (bigSer e)) List.reverse m = ok keys ∧ keys.length = 19 ∧
    Newest id exDump.flatten [3, 1] (entityOf [3, 1]) ∧ 8192 < (bigSer { entityOf [3, 1] with subkeys := [] }).length := by
  refine ⟨_, _, rfl, write_spec _ _ _, by decide +kernel, ?_, by decide +kernel⟩
  refine ⟨exDump.flatten.take 3, exDump.flatten.drop 4, by decide, ⟨by decide, Or.inl ⟨by decide, by decide⟩⟩, ?_, ?_⟩
  · intro x hx hel
    have : ∀ x ∈ exDump.flatten.take 3, x.primary ≠ [] ∧ [3, 1] ≠ id x.primary := by decide
    obtain ⟨h1, h2⟩ := this x hx
    rcases hel.2 with h | h | h
    · exact absurd h.2 h2
    · exact absurd h.1 h1
    · exact absurd h.1 h1
  · intro x hx _
    have : ∀ x ∈ exDump.flatten.drop 4, x.created ≤ (entityOf [3, 1]).created := by decide
    exact this x hx

end Verif.Pgp
