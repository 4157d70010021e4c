import Verif.Spec.Tls
import Verif.Lemmas.PointShare

/-! # Lemmas on the authentication of the servers -/

namespace Verif.Tls
open Res Verif.Tls.Spec Verif.Point Verif.Point.Spec

theorem serverCertificates_eq : serverCertificates = ok (serverPublicKeys.zip serverSecretKeys) := by decide

theorem roots_eq : loadServersCertificates.roots = serverPublicKeys := by decide

theorem roots_not_ca : ∀ c ∈ serverPublicKeys, c.isCA = false := by decide

theorem names_local : ∀ c ∈ serverPublicKeys, "127.0.0.1" ∈ c.names := by decide

/-- Roots that are no authorities end no chain. -/
theorem chains_false {roots : List Cert} (h : ∀ c ∈ roots, c.isCA = false) (more : List Cert) (now : Int) :
    ∀ (n : Nat) (c : Cert), chains roots more now n c = false := by
  intro n
  induction n with
  | zero => intro c; rfl
  | succ n ih =>
    intro c
    rw [chains, Bool.or_eq_false_iff]
    constructor
    · rw [List.any_eq_false]
      intro p hp
      simp [signedBy, h p hp]
    · rw [List.any_eq_false]
      intro p _
      simp [ih p]

theorem verify_iff (now : Int) (leaf : Cert) (more : List Cert) :
    verify loadServersCertificates now leaf more = true ↔ leaf ∈ serverPublicKeys ∧ inTime now leaf = true := by
  unfold verify
  rw [roots_eq, chains_false roots_not_ca, Bool.or_false, Bool.and_eq_true, Bool.and_eq_true, decide_eq_true_iff,
    decide_eq_true_iff]
  constructor
  · rintro ⟨⟨h1, -⟩, h2⟩
    exact ⟨h2, h1⟩
  · rintro ⟨h1, h2⟩
    exact ⟨⟨h2, names_local leaf h1⟩, h1⟩

theorem mem_keys_iff (c : Cert) : c ∈ serverPublicKeys ↔ ∃ i, ∃ h : i < 5, c = serverPublicKeys[i]'h := by
  rw [List.mem_iff_getElem]
  constructor
  · rintro ⟨i, h, e⟩; exact ⟨i, h, e.symm⟩
  · rintro ⟨i, h, e⟩; exact ⟨i, h, e.symm⟩

theorem key_eq {i : Nat} (h : i < 5) : (serverPublicKeys[i]'h).key = i := by
  match i, h with
  | 0, _ => rfl
  | 1, _ => rfl
  | 2, _ => rfl
  | 3, _ => rfl
  | 4, _ => rfl

theorem inTime_iff {i : Nat} (h : i < 5) (now : Int) : inTime now (serverPublicKeys[i]'h) = true ↔ Valid i now := by
  unfold inTime Valid
  rw [Bool.and_eq_true, decide_eq_true_iff, decide_eq_true_iff]
  match i, h with
  | 0, _ => exact Iff.rfl
  | 1, _ => exact Iff.rfl
  | 2, _ => exact Iff.rfl
  | 3, _ => exact Iff.rfl
  | 4, _ => exact Iff.rfl

theorem handshake_iff (now : Int) (p : Peer) : handshake loadServersCertificates now p = ok () ↔
    ∃ i, ∃ h : i < 5, p.leaf = serverPublicKeys[i]'h ∧ Valid i now ∧ i ∈ p.knows := by
  unfold handshake
  constructor
  · intro hs
    split at hs
    · rename_i hv
      split at hs
      · rename_i hk
        obtain ⟨hm, ht⟩ := (verify_iff _ _ _).mp hv
        obtain ⟨i, hi, he⟩ := (mem_keys_iff _).mp hm
        refine ⟨i, hi, he, (inTime_iff hi now).mp (he ▸ ht), ?_⟩
        rw [he, key_eq hi] at hk
        exact hk
      · cases hs
    · cases hs
  · rintro ⟨i, hi, he, hv, hk⟩
    rw [if_pos ((verify_iff _ _ _).mpr ⟨(mem_keys_iff _).mpr ⟨i, hi, he⟩, he ▸ (inTime_iff hi now).mpr hv⟩),
      if_pos (by rw [he, key_eq hi]; exact hk)]

theorem dial_iff (world : String → Option Peer) (now : Int) (a : String) : dial world now a = ok () ↔
    ∃ p, world a = some p ∧ ∃ i, ∃ h : i < 5, p.leaf = serverPublicKeys[i]'h ∧ Valid i now ∧ i ∈ p.knows := by
  unfold dial
  constructor
  · intro hd
    split at hd
    · cases hd
    · rename_i p hp
      split at hd
      · rename_i hs
        exact ⟨p, hp, (handshake_iff now p).mp hs⟩
      · cases hd
  · rintro ⟨p, hp, h⟩
    rw [hp]
    dsimp only
    rw [(handshake_iff now p).mpr h]

theorem serverPeer_eq {k : Nat} (h : k < 5) : serverPeer k = ok ⟨serverPublicKeys[k]'h, [], [k]⟩ := by
  match k, h with
  | 0, _ => rfl
  | 1, _ => rfl
  | 2, _ => rfl
  | 3, _ => rfl
  | 4, _ => rfl

/-- The sum of the messages, bit by bit, as a sum of bytes. -/
theorem parity_xsum (j : Nat) (servers : List String) : ∀ (qs : List (List Byte)), servers.length = qs.length →
    sel (parity (servers.zip qs) j) 1 = xsum qs.length (fun k => sel (bitOf (qs.getD k []) j) 1) := by
  have key : ∀ (qs : List (List Byte)), sel (qs.foldl (fun b q => b ^^ bitOf q j) false) 1 =
      xsum qs.length (fun k => sel (bitOf (qs.getD k []) j) 1) := by
    intro qs
    induction qs using List.reverseRecOn with
    | nil => rfl
    | append_singleton qs q ih =>
      rw [List.foldl_append, List.foldl_cons, List.foldl_nil, sel_xor, ih, List.length_append, List.length_singleton, xsum]
      congr 1
      · apply xsum_congr
        intro i hi
        rw [getD_append, if_pos hi]
      · rw [getD_append, if_neg (by omega)]
        simp
  intro qs h
  rw [← key]
  congr 1
  unfold parity
  have : ∀ (l : List (String × List Byte)) (b : Bool), l.foldl (fun b m => b ^^ bitOf m.2 j) b =
      (l.map (·.2)).foldl (fun b q => b ^^ bitOf q j) b := by
    intro l b
    rw [List.foldl_map]
  rw [this, List.map_snd_zip (by omega)]

theorem sel_inj {a b : Bool} (h : sel a (1 : Byte) = sel b 1) : a = b := by
  revert h
  cases a <;> cases b <;> decide

end Verif.Tls
