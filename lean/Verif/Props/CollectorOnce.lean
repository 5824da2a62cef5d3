import Verif.Proofs.CallB
set_option autoImplicit false
/-
C53, at most once: whatever the collector's cleanups do.
-/
namespace Resmix.Rrpc
open Resmix.Ecc
variable {μ : Type}

/-- C53, the part that no cleanup can break: the parcels of a call reach the collector in any order, interleaved with anything else and with ticks at any time,
at most one per relay, in a network that needs more than half of the parcels. Then the handler runs at most once for the call, and if it runs, on the bytes
the client sent. What is missing: that it runs (`C53_exactly_once_partial`). -/
theorem C53_at_most_once_partial (net : Network) (C : RS) (hC : NewCoordinator net (.ok C))
    (hmaj : (net.serverAddresses.length : Int) < 2 * net.minimalRelayedParcels) (lookup : Str → Go μ) (method : Str) (mm : μ)
    (hm : lookup method = .ok mm) (note : ExchangeNote) (args : Bytes) (hlen : args.length < 2 ^ 32) (parcels : List Parcel)
    (hp : RequestIntoRobust C false net method note args (.ok parcels)) (evs : List CEv)
    (harr : ((callParcels note.calluuid evs).map Parcel.unsigned).Subperm parcels) :
    (runsOf note.calluuid (collector net lookup evs)).length ≤ 1 ∧
      ∀ t ∈ runsOf note.calluuid (collector net lookup evs), Invokes C t mm note.calluuid args := by
  obtain ⟨hk, hkpos⟩ := minimal_pos hC
  have hkeq : ((net.minimalRelayedParcels.toNat : Nat) : Int) = net.minimalRelayedParcels := by omega
  obtain ⟨parcels', hp1, hp2, hp3, hp4⟩ := C41_request_parcels net C hC method note args hlen
  have hpp : parcels = parcels' := by have := (hp1 _).1 hp; injection this
  subst hpp
  obtain ⟨-, -, -, h3, h4⟩ := collector_any net.minimalRelayedParcels.toNat (by omega) 5000000000 lookup note.calluuid evs
  rw [hkeq] at h3 h4
  have hle := harr.length_le
  rw [List.length_map, hp2] at hle
  refine ⟨?_, ?_⟩
  · by_contra hc
    have h8 : net.minimalRelayedParcels.toNat * 2 ≤ net.minimalRelayedParcels.toNat * (runsOf note.calluuid (collector net lookup evs)).length :=
      Nat.mul_le_mul_left _ (by omega)
    unfold collector at h8
    omega
  · intro t ht
    obtain ⟨⟨a1, ⟨q, hq, hqm⟩, q', hq', hn⟩, a4⟩ := h3 t ht
    rw [hq] at hq'
    injection hq' with hq'
    subst hq'
    have hsub : (t.parcels.map Parcel.unsigned).Subperm parcels := (a1.map _).subperm.trans harr
    have hmem : q.unsigned ∈ parcels := hsub.subset (List.mem_map_of_mem (List.mem_of_mem_head? hq))
    obtain ⟨i, hi⟩ := List.getElem?_of_mem hmem
    refine ⟨?_, ?_, ?_⟩
    · have : q.method = method := (hp3 i _ hi).2.1
      rw [this, hm] at hqm
      injection hqm with hqm
      exact hqm.symm
    · have := List.mem_of_mem_head? hq
      have := a1.subset this
      unfold callParcels at this
      obtain ⟨e, -, he⟩ := List.mem_filterMap.1 this
      cases e with
      | tick now => simp at he
      | parcel now p =>
        simp only at he
        split at he
        · next h => injection he with he; rw [hn, ← he]; exact h
        · cases he
    · intro res
      rw [← reconstructParcels_unsigned]
      exact hp4 _ hsub (by rw [List.length_map, a4]; omega) res

/-- Its hypotheses are met when a late tick strikes between the parcels of a call. -/
example (net : Network) (C : RS) (hC : NewCoordinator net (.ok C)) (method : Str) (note : ExchangeNote)
    (hn : note.senderMerkleProof = none) (args : Bytes) (hlen : args.length < 2 ^ 32) :
    ∃ parcels p0 ps, RequestIntoRobust C false net method note args (.ok parcels) ∧ parcels = p0 :: ps ∧
      ((callParcels note.calluuid (CEv.parcel 1 p0 :: .tick 6000000000 :: ps.reverse.map (CEv.parcel 6000000001))).map Parcel.unsigned).Subperm parcels := by
  obtain ⟨hk, hm, hkm⟩ := coordinator_code hC
  obtain ⟨hk', hkpos⟩ := minimal_pos hC
  set parcels := (List.range net.serverAddresses.length).map (parcelFor C method note args) with hp
  have hu : ∀ p ∈ parcels, p.note.calluuid = note.calluuid := by
    intro p h
    obtain ⟨i, -, rfl⟩ := List.mem_map.1 h; rfl
  have hun : ∀ p ∈ parcels, p.unsigned = p := by
    intro p h
    obtain ⟨i, -, rfl⟩ := List.mem_map.1 h
    cases note; simp_all [Parcel.unsigned, parcelFor]
  cases hps : parcels with
  | nil =>
    have : parcels.length = 0 := by rw [hps]; rfl
    rw [hp, List.length_map, List.length_range] at this
    omega
  | cons p0 ps =>
    refine ⟨p0 :: ps, p0, ps, ?_, rfl, ?_⟩
    · rw [← hps, requestIntoRobust_iff hC method note args hlen]
    · have h1 : callParcels note.calluuid (CEv.parcel 1 p0 :: .tick 6000000000 :: ps.reverse.map (CEv.parcel 6000000001)) = p0 :: ps.reverse := by
        have h2 := callParcels_map note.calluuid ps.reverse 6000000001 (fun p h => hu p (by rw [hps]; simp at h; simp [h]))
        have h3 : callParcels note.calluuid (CEv.parcel 1 p0 :: .tick 6000000000 :: ps.reverse.map (CEv.parcel 6000000001)) =
            p0 :: callParcels note.calluuid (ps.reverse.map (CEv.parcel 6000000001)) := by
          simp [callParcels, hu p0 (by rw [hps]; simp)]
        rw [h3, h2]
      rw [h1, List.map_congr_left (g := id) (fun p h => hun p (by rw [hps]; simpa using h)), List.map_id]
      exact ((List.reverse_perm ps).cons p0).subperm

end Resmix.Rrpc
