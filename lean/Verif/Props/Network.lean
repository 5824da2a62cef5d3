import Verif.Proofs.Network
import Verif.Proofs.EccCode
import Verif.Spec.Network
import Mathlib.Data.Finset.Card
set_option autoImplicit false
/-
C51, C52: quorum sizes and relay indices.
-/
namespace Resmix.Rrpc
open Resmix.Ecc

theorem mem_registered (confs : List ServerData) (a : Str) (k : Bytes) :
    (a, k) ∈ registered confs ↔ ∃ s ∈ confs, Registers s a k := by
  unfold registered Registers
  rw [List.mem_filterMap]
  constructor
  · rintro ⟨⟨b, _ | l⟩, hs, h⟩
    · cases h
    · simp only at h
      split at h
      · cases h
      · next hb =>
        injection h with h
        cases h
        exact ⟨_, hs, rfl, hb, rfl⟩
  · rintro ⟨⟨b, l⟩, hs, h1, h2, h3⟩
    simp only at h1 h3
    subst h1; subst h3
    exact ⟨_, hs, by simp [h2]⟩

theorem registered_length_le (confs : List ServerData) : (registered confs).length ≤ confs.length := List.length_filterMap_le _ _

theorem registered_length_valid (confs : List ServerData) (h : ∀ s ∈ confs, ∃ a k, Registers s a k) :
    (registered confs).length = confs.length := by
  induction confs with
  | nil => rfl
  | cons s confs ih =>
    obtain ⟨a, k, h1, h2, h3⟩ := h s (by simp)
    have ih := ih (fun t ht => h t (List.mem_cons_of_mem _ ht))
    obtain ⟨b, l⟩ := s
    simp only at h1 h3
    subst h1; subst h3
    unfold registered at ih ⊢
    simp [h2, ih]

/-- C51. In every network the quorum and the tolerated errors add up to the number of servers, and MinimalAttestationNumber is the
least integer that exceeds tau/2 by at least one. -/
theorem C51_sizes (net : Network) :
    net.minimalRelayedParcels + net.maxErrors = net.serverAddresses.length ∧
    (net.tau + 2 ≤ 2 * net.minimalAttestationNumber ∧ ∀ a : Int, net.tau + 2 ≤ 2 * a → net.minimalAttestationNumber ≤ a) := by
  refine ⟨by unfold Network.minimalRelayedParcels; ring, ?_, ?_⟩
  · unfold Network.minimalAttestationNumber; omega
  · intro a ha; unfold Network.minimalAttestationNumber; omega

/-- C51. The network a configuration with `n` valid peers creates has `n` servers and tau = n/2. For n ≥ 2 any two sets of
MinimalRelayedParcels servers have a server in common and the coordinator's erasure code has MinimalRelayedParcels data shards and
MaxErrors parity shards (such a code exists up to 256 servers); for n ≤ 1 creating the coordinator panics. -/
theorem C51_configured (peers : List ServerData) (hvalid : ∀ s ∈ peers, ∃ a k, Registers s a k) :
    (configNetwork peers).serverAddresses.length = peers.length ∧
    (configNetwork peers).maxErrors = ((peers.length / 2 : Nat) : Int) - 1 ∧
    (2 ≤ peers.length →
      (∀ A B : Finset Nat, (∀ x ∈ A, x < peers.length) → (∀ x ∈ B, x < peers.length) →
        (configNetwork peers).minimalRelayedParcels ≤ A.card → (configNetwork peers).minimalRelayedParcels ≤ B.card → (A ∩ B).Nonempty) ∧
      (∀ res, NewCoordinator (configNetwork peers) res → ∃ C, res = .ok C ∧
        (C.k : Int) = (configNetwork peers).minimalRelayedParcels ∧ (C.m : Int) = (configNetwork peers).maxErrors) ∧
      (peers.length ≤ 256 → ∃ C, NewCoordinator (configNetwork peers) (.ok C))) ∧
    (peers.length ≤ 1 → ∀ res, NewCoordinator (configNetwork peers) res ↔ res = .error .panic) := by
  have hn : (configNetwork peers).serverAddresses.length = peers.length := by
    unfold configNetwork
    rw [Network.new_addresses, (Network.sortStrings_perm _).length_eq, List.length_map, registered_length_valid peers hvalid]
  have ht : (configNetwork peers).tau = ((peers.length / 2 : Nat) : Int) := Network.new_tau _ _
  have hmax : (configNetwork peers).maxErrors = ((peers.length / 2 : Nat) : Int) - 1 := by unfold Network.maxErrors; rw [ht]
  have hmin : (configNetwork peers).minimalRelayedParcels = (peers.length : Int) - (((peers.length / 2 : Nat) : Int) - 1) := by
    unfold Network.minimalRelayedParcels; rw [hmax, hn]
  refine ⟨hn, hmax, ?_, ?_⟩
  · intro h2
    refine ⟨?_, ?_, ?_⟩
    · intro A B hA hB hcA hcB
      rw [hmin] at hcA hcB
      rw [← Finset.card_pos]
      have hU : (A ∪ B).card ≤ peers.length := by
        have : A ∪ B ⊆ Finset.range peers.length := by
          intro x hx
          rcases Finset.mem_union.1 hx with h | h
          · exact Finset.mem_range.2 (hA x h)
          · exact Finset.mem_range.2 (hB x h)
        simpa using Finset.card_le_card this
      have := Finset.card_union_add_card_inter A B
      omega
    · rintro res ⟨e, he, hr⟩
      unfold NewEcc at he
      rw [hn, hmax, if_neg (by omega)] at he
      obtain ⟨C, h1, h2, rfl⟩ := he
      exact ⟨C, hr, by rw [hmin]; exact h1, by rw [hmax]; exact h2⟩
    · intro h256
      refine ⟨rsCode (peers.length - (peers.length / 2 - 1)) (peers.length / 2 - 1) (by omega) (by omega), .ok _, ?_, rfl⟩
      unfold NewEcc
      rw [hn, hmax, if_neg (by omega)]
      refine ⟨_, ?_, ?_, rfl⟩
      · show ((peers.length - (peers.length / 2 - 1) : Nat) : Int) = _
        omega
      · show ((peers.length / 2 - 1 : Nat) : Int) = _
        omega
  · intro h1 res
    have hlt : (peers.length : Int) - (((peers.length / 2 : Nat) : Int) - 1) ≤ 0 ∨ ((peers.length / 2 : Nat) : Int) - 1 < 0 := by omega
    unfold NewCoordinator NewEcc
    rw [hn, hmax]
    simp only [if_pos hlt]
    constructor
    · rintro ⟨e, rfl, rfl⟩; rfl
    · rintro rfl; exact ⟨_, rfl, rfl⟩

/-- Three valid peers. -/
example : ∀ s ∈ [(⟨[1], some [1]⟩ : ServerData), ⟨[2], some [2]⟩, ⟨[3], some [3]⟩], ∃ a k, Registers s a k := by
  intro s hs
  simp only [List.mem_cons, List.not_mem_nil, or_false] at hs
  rcases hs with rfl | rfl | rfl <;> exact ⟨_, _, rfl, by simp, rfl⟩

/-- C52. The server list is the sorted list of the registered addresses; entries without address or key do not occur in it. -/
theorem C52_server_list (tau : Int) (confs : List ServerData) :
    (Network.new tau confs).serverAddresses.Pairwise (· ≤ ·) ∧
    ∀ a, a ∈ (Network.new tau confs).serverAddresses ↔ ∃ s ∈ confs, ∃ k, Registers s a k := by
  rw [Network.new_addresses]
  refine ⟨Network.sortStrings_sorted _, fun a => ?_⟩
  rw [(Network.sortStrings_perm _).mem_iff, List.mem_map]
  constructor
  · rintro ⟨⟨b, k⟩, h, rfl⟩
    obtain ⟨s, hs, h⟩ := (mem_registered confs b k).1 h
    exact ⟨s, hs, k, h⟩
  · rintro ⟨s, hs, k, h⟩
    exact ⟨(a, k), (mem_registered confs a k).2 ⟨s, hs, h⟩, rfl⟩

/-- C52. Two networks built from the same entries in any order, with any additional invalid entries, have identical server lists
(so the indices mean the same servers). -/
theorem C52_order_irrelevant (tau tau' : Int) (confs confs' bad bad' : List ServerData) (h : confs.Perm confs')
    (hbad : ∀ s ∈ bad, ∀ a k, ¬Registers s a k) (hbad' : ∀ s ∈ bad', ∀ a k, ¬Registers s a k) :
    (Network.new tau (confs ++ bad)).serverAddresses = (Network.new tau' (confs' ++ bad')).serverAddresses := by
  have hnil : ∀ l : List ServerData, (∀ s ∈ l, ∀ a k, ¬Registers s a k) → registered l = [] := by
    intro l hl
    rw [List.eq_nil_iff_forall_not_mem]
    rintro ⟨a, k⟩ hm
    obtain ⟨s, hs, h⟩ := (mem_registered l a k).1 hm
    exact hl s hs a k h
  have happ : ∀ l l', registered (l ++ l') = registered l ++ registered l' := fun l l' => List.filterMap_append ..
  rw [Network.new_addresses, Network.new_addresses, happ, happ, hnil bad hbad, hnil bad' hbad', List.append_nil, List.append_nil]
  exact Network.sortStrings_congr ((h.filterMap _).map _)

/-- C52. GetRelayIndex of a registered server is a position of the server in the list, the first one (the only one if no address
occurs twice). -/
theorem C52_relay_index (tau : Int) (confs : List ServerData) (a : Str) (h : ∃ s ∈ confs, ∃ k, Registers s a k) :
    (Network.new tau confs).serverAddresses[(Network.new tau confs).getRelayIndex a]? = some a ∧
    (∀ j < (Network.new tau confs).getRelayIndex a, (Network.new tau confs).serverAddresses[j]? ≠ some a) ∧
    ((confs.map ServerData.address).Nodup →
      ∀ (j : Nat), (Network.new tau confs).serverAddresses[j]? = some a → j = (Network.new tau confs).getRelayIndex a) := by
  obtain ⟨hs, hmem⟩ := C52_server_list tau confs
  obtain ⟨h1, h2⟩ := Network.getRelayIndex_spec (Network.new tau confs) hs a ((hmem a).2 h)
  refine ⟨h1, h2, fun hnd j hj => ?_⟩
  have hsub : ((registered confs).map Prod.fst).Sublist (confs.map ServerData.address) := by
    clear h h1 h2 hj hmem hs hnd
    induction confs with
    | nil => exact .slnil
    | cons s confs ih =>
      obtain ⟨b, _ | l⟩ := s
      · exact ih.cons _
      · unfold registered at ih ⊢
        rw [List.filterMap_cons]
        by_cases hb : b = []
        · simp only [hb, if_true]; exact ih.cons _
        · simp only [hb, if_false, List.map_cons]; exact ih.cons_cons _
  have hnd' : (Network.new tau confs).serverAddresses.Nodup := by
    rw [Network.new_addresses]
    exact (Network.sortStrings_perm _).nodup_iff.2 (hnd.sublist hsub)
  obtain ⟨hj1, hj2⟩ := List.getElem?_eq_some_iff.1 hj
  obtain ⟨hi1, hi2⟩ := List.getElem?_eq_some_iff.1 h1
  exact (List.Nodup.getElem_inj_iff hnd').1 (hj2.trans hi2.symm)

/-- C52. With distinct addresses and distinct keys among the registered entries, looking up the key of a host and the host of a key
answer exactly the registered pairs; any other host is an error, any other key is not contained and has the empty host name. -/
theorem C52_lookups (tau : Int) (confs : List ServerData)
    (haddr : ∀ s ∈ confs, ∀ s' ∈ confs, ∀ a k k', Registers s a k → Registers s' a k' → s = s')
    (hkeys : ∀ s ∈ confs, ∀ s' ∈ confs, ∀ a a' k, Registers s a k → Registers s' a' k → s = s') (hnd : confs.Nodup) (a : Str) (k : Bytes) :
    ((Network.new tau confs).getPublicKey a = .ok k ↔ ∃ s ∈ confs, Registers s a k) ∧
    (((Network.new tau confs).containKey k = true ∧ (Network.new tau confs).getHostname k = a) ↔ ∃ s ∈ confs, Registers s a k) ∧
    ((¬∃ s ∈ confs, ∃ k, Registers s a k) → (Network.new tau confs).getPublicKey a = .error (.err .notFound "unknown hots")) ∧
    ((¬∃ s ∈ confs, ∃ a, Registers s a k) → (Network.new tau confs).containKey k = false ∧ (Network.new tau confs).getHostname k = []) := by
  have hpair : (registered confs).Pairwise (fun e e' => e.1 ≠ e'.1 ∧ e.2 ≠ e'.2) := by
    unfold registered
    rw [List.pairwise_filterMap]
    refine List.Pairwise.imp_of_mem ?_ hnd
    rintro s s' hs hs' hne ⟨b, l⟩ hb ⟨b', l'⟩ hb'
    have r1 : Registers s b l := by
      obtain ⟨x, _ | y⟩ := s
      · simp at hb
      · simp only [Option.ite_none_left_eq_some, Option.some.injEq, Prod.mk.injEq] at hb
        obtain ⟨h1, h2, h3⟩ := hb
        subst h2 h3
        exact ⟨rfl, h1, rfl⟩
    have r2 : Registers s' b' l' := by
      obtain ⟨x, _ | y⟩ := s'
      · simp at hb'
      · simp only [Option.ite_none_left_eq_some, Option.some.injEq, Prod.mk.injEq] at hb'
        obtain ⟨h1, h2, h3⟩ := hb'
        subst h2 h3
        exact ⟨rfl, h1, rfl⟩
    constructor
    · intro h
      simp only at h
      subst h
      exact hne (haddr s hs s' hs' _ _ _ r1 r2)
    · intro h
      simp only at h
      subst h
      exact hne (hkeys s hs s' hs' _ _ _ r1 r2)
  have hnd1 : ((registered confs).map Prod.fst).Nodup := List.pairwise_map.2 (hpair.imp fun h => h.1)
  have hnd2 : ((registered confs).map Prod.snd).Nodup := List.pairwise_map.2 (hpair.imp fun h => h.2)
  have hh : ∀ k, (Network.new tau confs).hostToPK.lookup a = some k ↔ ∃ s ∈ confs, Registers s a k := by
    intro k
    unfold Network.new
    simp only [Network.foldl_addServer]
    rw [Network.foldl_addEntry_hostToPK _ _ _ hnd1, mem_registered]
    simp
  have hk : ∀ a, (Network.new tau confs).pkToHost.lookup k = some a ↔ ∃ s ∈ confs, Registers s a k := by
    intro a
    unfold Network.new
    simp only [Network.foldl_addServer]
    rw [Network.foldl_addEntry_pkToHost _ _ _ hnd2, mem_registered]
    simp
  refine ⟨?_, ?_, ?_, ?_⟩
  · rw [← hh k]
    unfold Network.getPublicKey
    cases hx : GoMap.lookup (Network.new tau confs).hostToPK a with
    | none => simp
    | some y => simp
  · rw [← hk a]
    unfold Network.containKey Network.getHostname
    cases hx : GoMap.lookup (Network.new tau confs).pkToHost k with
    | none => simp
    | some y => simp
  · intro hno
    unfold Network.getPublicKey
    cases hx : GoMap.lookup (Network.new tau confs).hostToPK a with
    | none => rfl
    | some y =>
      obtain ⟨s, hs, h⟩ := (hh y).1 hx
      exact absurd ⟨s, hs, y, h⟩ hno
  · intro hno
    unfold Network.containKey Network.getHostname
    cases hx : GoMap.lookup (Network.new tau confs).pkToHost k with
    | none => exact ⟨rfl, rfl⟩
    | some y =>
      obtain ⟨s, hs, h⟩ := (hk y).1 hx
      exact absurd ⟨s, hs, y, h⟩ hno

/-- A configuration with an invalid entry: the others are registered, the list is sorted. -/
example : (∃ s ∈ [(⟨[2], some [7]⟩ : ServerData), ⟨[1], none⟩, ⟨[1], some [9]⟩], ∃ k, Registers s [2] k) ∧
    (Network.new 1 [⟨[2], some [7]⟩, ⟨[1], none⟩, ⟨[1], some [9]⟩]).getRelayIndex [2] = 1 := by
  refine ⟨⟨⟨[2], some [7]⟩, by simp, [7], rfl, by simp, rfl⟩, ?_⟩
  unfold Network.getRelayIndex
  rw [Network.new_addresses]
  simp [registered, Network.sortStrings, List.mergeSort, List.MergeSort.Internal.splitInTwo, Network.searchLoop, List.merge, show ¬([2] : List UInt8) ≤ [1] from by decide, List.le_refl]

end Resmix.Rrpc
