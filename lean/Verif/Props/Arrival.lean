import Verif.Props.MerklePir
import Verif.Lemmas.Client

/-! # C114: what a lookup shows does not depend on the order in which answers arrive

cmd/grpc/client/main.go:278-419, cmd/grpc/client/manager/mod.go:71-217, lib/client/multi_vector.go. -/

namespace Verif.Client
open Res Verif.Cmd Verif.Pgp

/-- A list whose members are all the same is the only one of its permutations. -/
theorem perm_all_eq {α : Type _} {l l' : List α} (h : l.Perm l') (he : ∀ x ∈ l', ∀ y ∈ l', x = y) : l = l' := by
  cases l' with
  | nil => exact List.perm_nil.mp h
  | cons a t =>
    rw [List.eq_replicate_iff.mpr ⟨rfl, fun b hb => he b hb a (by simp)⟩] at h ⊢
    exact List.perm_replicate.mp h

theorem mapM_mem {α β : Type _} {f : α → Res β} : ∀ {l : List α} {r : List β}, l.mapM f = ok r →
    ∀ y ∈ r, ∃ x ∈ l, f x = ok y := by
  intro l
  induction l with
  | nil => intro r h y hy; simp only [List.mapM_nil] at h; cases h; simp at hy
  | cons a l ih =>
    intro r h y hy
    rw [List.mapM_cons, Res.bind_eq_ok] at h
    obtain ⟨b, hb, h⟩ := h
    rw [Res.bind_eq_ok] at h
    obtain ⟨t, ht, h⟩ := h
    cases h
    rcases List.mem_cons.mp hy with rfl | hy
    · exact ⟨a, by simp, hb⟩
    · obtain ⟨x, hx, hxy⟩ := ih ht y hy
      exact ⟨x, by simp [hx], hxy⟩

theorem connect_mem {dial : String → Res Unit} {l conns : List String} (h : connect dial l = ok conns) :
    ∀ a ∈ conns, a ∈ l := by
  have key : ∀ (l acc conns : List String), l.foldlM (fun conns s => do
      let _ ← dial s
      ok (if s ∈ conns then conns else conns ++ [s])) acc = ok conns → ∀ a ∈ conns, a ∈ acc ∨ a ∈ l := by
    intro l
    induction l with
    | nil => intro acc conns h a ha; simp only [List.foldlM_nil] at h; cases h; exact Or.inl ha
    | cons x l ih =>
      intro acc conns h a ha
      rw [List.foldlM_cons, Res.bind_eq_ok] at h
      obtain ⟨b, hb, h⟩ := h
      rw [Res.bind_eq_ok] at hb
      obtain ⟨-, -, hb⟩ := hb
      cases hb
      rcases ih _ _ h a ha with h' | h'
      · split at h'
        · exact Or.inl h'
        · rcases List.mem_append.mp h' with h' | h'
          · exact Or.inl h'
          · exact Or.inr (by simp at h'; simp [h'])
      · exact Or.inr (by simp [h'])
  intro a ha
  rcases key l [] conns h a ha with h' | h'
  · simp at h'
  · exact h'

/-- Servers that report the same: the infos are the same list in every schedule. -/
theorem gatherInfos_any (net : Net) {S S' : Schedule} (hS : Spec.Fair S) (hS' : Spec.Fair S') (servers : List String)
    (hsame : ∀ a ∈ servers, ∀ b ∈ servers, net.info a = net.info b) :
    gatherInfos net S servers = gatherInfos net S' servers := by
  unfold gatherInfos
  cases h : servers.mapM (fun a => orFatal (net.info a)) with
  | err m => rfl
  | crash m => rfl
  | ok infos =>
    have he : ∀ x ∈ infos, ∀ y ∈ infos, x = y := by
      intro x hx y hy
      obtain ⟨a, ha, hax⟩ := mapM_mem h x hx
      obtain ⟨b, hb, hby⟩ := mapM_mem h y hy
      rw [hsame a ha b hb, hby] at hax
      exact (Res.ok.inj hax).symm
    rw [ok_bind, ok_bind, perm_all_eq (hS.infos infos) he, perm_all_eq (hS'.infos infos) he]

/-- Whatever the servers answer, the result of a lookup is the same in every order of arrival. -/
theorem lookup_any (L : Lib) (n : Nat) (net : Net) {S S' : Schedule} (hS : Spec.Fair S) (hS' : Spec.Fair S')
    (servers : List String) (info : Database.Info) (id : Str) :
    lookup L n (runQueriesActor net S servers) info id = lookup L n (runQueriesActor net S' servers) info id := by
  unfold lookup
  congr 1
  funext qs
  obtain ⟨queries, st⟩ := qs
  dsimp only
  unfold runQueriesActor
  simp only [bind_assoc]
  congr 1
  funext sent
  congr 1
  funext answers
  rw [ok_bind, ok_bind, MerklePir.C05_authenticated_order L.H _ _ info st
    ((hS.answers answers).trans (hS'.answers answers).symm)]

/-- C114: the interactive client shows the same in any two schedules, whatever the servers answer (right, wrong,
malformed or not at all) and whatever is looked up, plain or verified. -/
theorem C114_interactive (L : Lib) (net : Net) (S S' : Schedule) (hS : Spec.Fair S) (hS' : Spec.Fair S')
    (servers : List String) (hsame : ∀ a ∈ servers, ∀ b ∈ servers, net.info a = net.info b) (email : String) :
    downloadKey L net S servers email = downloadKey L net S' servers email := by
  unfold downloadKey actorLookup
  simp only [gatherInfos_any net hS hS' servers hsame, lookup_any L _ net hS hS' servers]

/-- C114: so does the web front end. -/
theorem C114_web (L : Lib) (net : Net) (S S' : Schedule) (hS : Spec.Fair S) (hS' : Spec.Fair S')
    (servers : List String) (hsame : ∀ a ∈ servers, ∀ b ∈ servers, net.info a = net.info b) (req : Request) :
    handleRetrieve L net S servers req = handleRetrieve L net S' servers req := by
  unfold handleRetrieve
  simp only [gatherInfos_any net hS hS' servers hsame, lookup_any L _ net hS hS' servers]

/-- C114: so does the command-line client, if the run-time enumerates the map of connections in the same order (this order
decides which server gets which query). -/
theorem C114_command_line (L : Lib) (W : Predicate.World) (gob : Predicate.Msg → List Byte) (mk : Int → Query.Time)
    (net : Net) (S S' : Schedule) (hS : Spec.Fair S) (hS' : Spec.Fair S') (hconns : S.conns = S'.conns)
    (addresses : List String) (hsame : ∀ a ∈ addresses, ∀ b ∈ addresses, net.info a = net.info b) (f : Flags)
    (hf : f.scheme = "pointPIR" ∨ f.scheme = "pointVPIR") (typed : String) :
    main L W gob mk net S addresses f typed = main L W gob mk net S' addresses f typed := by
  unfold main
  cases hc : connect net.dial addresses with
  | err m => rfl
  | crash m => rfl
  | ok conns =>
    have hmem : ∀ a ∈ conns, a ∈ addresses := fun a ha => connect_mem hc a ha
    simp only [orFatal, ok_bind]
    unfold exec
    rw [gatherInfos_any net hS hS' conns (fun a ha b hb => hsame a (hmem a ha) b (hmem b hb))]
    simp only [if_pos hf]
    have e : ∀ info id, lookup L conns.length (runQueries net S conns) info id =
        lookup L conns.length (runQueries net S' conns) info id := by
      intro info id
      unfold runQueries
      rw [hconns]
      exact lookup_any L _ net hS hS' _ info id
    simp only [e]

/-- Answers that arrive in the opposite order. -/
example : Spec.Fair ⟨id, id, id⟩ ∧ Spec.Fair ⟨id, id, List.reverse⟩ :=
  ⟨⟨fun _ => .refl _, fun _ => .refl _, fun _ => .refl _⟩, ⟨fun _ => .refl _, fun _ => .refl _, List.reverse_perm⟩⟩

/-- Two servers that report the same parameters and answer differently. -/
example : ∀ a ∈ ["a:1", "b:1"], ∀ b ∈ ["a:1", "b:1"],
    (⟨fun _ => ok (), fun _ => ok ⟨1, 1, 2, "classical", [], 0⟩, fun a _ => ok (if a = "a:1" then [1, 2] else [3])⟩ :
      Net).info a =
    (⟨fun _ => ok (), fun _ => ok ⟨1, 1, 2, "classical", [], 0⟩, fun a _ => ok (if a = "a:1" then [1, 2] else [3])⟩ :
      Net).info b := fun _ _ _ _ => rfl

end Verif.Client
