import Verif.Proofs.CallA
import Verif.Proofs.CallT
import Verif.Props.Tamper
set_option autoImplicit false
/-
Honest calls: what their parcels look like.
-/
namespace Resmix.Rrpc.CallSystem
open Resmix.Ecc
variable {μ : Type} {K m n : Nat} {cfg : Config μ K m n}

structure GoodParcel (cfg : Config μ K m n) (k : Fin K) (r : Fin n) (p : Parcel) : Prop where
  uuid : p.note.calluuid = cfg.uuid k
  receiver : p.note.receiverID = (cfg.calls k).note.receiverID
  unsigned : p.note.receiverMerkleProof = none
  index : p.relayIndex = ((r : Nat) : Int)
  method : p.method = (cfg.calls k).method
  accept : ∀ cache, Relay.onParcel cfg.S cfg.H cfg.cod cache false cfg.text r p = .accept

theorem Honest.parcels (hh : Honest cfg) (k : Fin K) :
    (∀ r, GoodParcel cfg k r (cfg.parcel (k, r))) ∧
    ∃ ps, RequestIntoRobust cfg.C false cfg.net (cfg.calls k).method (cfg.calls k).note (cfg.calls k).args (.ok ps) ∧
      (List.ofFn (cfg.calls k).parcels).map Parcel.unsigned = ps := by
  have hc := hh.calls k
  obtain ⟨ps, out, h1, h2, h3, h4⟩ := C74_honest_parcel_accepted_partial cfg.S cfg.H cfg.cod (cfg.calls k).key cfg.net cfg.C hh.code (cfg.calls k).method (cfg.calls k).note
    hc.sender hc.unsigned.1 (cfg.calls k).args hc.size (by rw [hh.servers]; exact hh.small)
  obtain ⟨ps', m1, m2⟩ := hc.made
  have e1 : ps' = ps := by have := (h1 _).1 m1; injection this
  subst e1
  rw [m2] at h2
  injection h2 with h2
  obtain ⟨qs, q1, q2, q3, q4⟩ := C41_request_parcels cfg.net cfg.C hh.code (cfg.calls k).method (cfg.calls k).note (cfg.calls k).args hc.size
  have e2 : qs = ps' := by have := (q1 _).1 m1; injection this with this; exact this.symm
  subst e2
  constructor
  · intro r
    have hr : out[(r : Nat)]? = some (cfg.parcel (k, r)) := by
      rw [← h2, List.getElem?_ofFn, dif_pos r.2]; rfl
    obtain ⟨a1, a2⟩ := h4 _ _ hr
    obtain ⟨b1, b2, b3, b4⟩ := q3 _ _ a1
    refine ⟨?_, ?_, ?_, b1, b2, ?_⟩
    · have := congrArg ExchangeNote.calluuid b3; exact this
    · have := congrArg ExchangeNote.receiverID b3; exact this
    · exact (congrArg ExchangeNote.receiverMerkleProof b3).trans hc.unsigned.2
    · intro cache
      unfold Relay.onParcel
      rw [a2 cache]
  · refine ⟨qs, m1, ?_⟩
    rw [h2]
    apply List.ext_getElem?
    intro i
    rw [List.getElem?_map]
    cases hi : out[i]? with
    | none =>
      have := List.getElem?_eq_none_iff.1 hi
      rw [List.getElem?_eq_none (by omega)]; rfl
    | some q => rw [(h4 i q hi).1]; rfl

/-- The parcels of a call are different. -/
theorem Honest.parcel_inj (hh : Honest cfg) {x y : Fin K × Fin n} (h : cfg.parcel x = cfg.parcel y) : x = y := by
  have h1 := ((hh.parcels x.1).1 x.2)
  have h2 := ((hh.parcels y.1).1 y.2)
  have e1 : x.1 = y.1 := hh.uuids _ _ (by rw [← h1.uuid, ← h2.uuid]; exact congrArg (fun p : Parcel => p.note.calluuid) h)
  have e2 : ((x.2 : Nat) : Int) = ((y.2 : Nat) : Int) := by rw [← h1.index, ← h2.index]; exact congrArg (fun p : Parcel => p.relayIndex) h
  exact Prod.ext e1 (Fin.ext (by exact_mod_cast e2))

theorem Honest.min (hh : Honest cfg) : ((cfg.net.minimalRelayedParcels.toNat : Nat) : Int) = cfg.net.minimalRelayedParcels ∧ 0 < cfg.net.minimalRelayedParcels.toNat := by
  obtain ⟨h1, h2⟩ := minimal_pos hh.code
  omega

/-- Enough different parcels of a call give its arguments. -/
theorem Honest.reconstruct (hh : Honest cfg) (k : Fin K) (ps : List Parcel) (hs : ps.Subperm (List.ofFn (cfg.calls k).parcels))
    (hl : cfg.net.minimalRelayedParcels ≤ ps.length) (res : Go Bytes) : ReconstructParcels cfg.C false ps res ↔ res = .ok (cfg.calls k).args := by
  obtain ⟨-, qs, h1, h2⟩ := hh.parcels k
  obtain ⟨qs', q1, q2, q3, q4⟩ := C41_request_parcels cfg.net cfg.C hh.code (cfg.calls k).method (cfg.calls k).note (cfg.calls k).args (hh.calls k).size
  have e : qs' = qs := by have := (q1 _).1 h1; injection this with this; exact this.symm
  subst e
  rw [← reconstructParcels_unsigned]
  apply q4
  · rw [← h2]; exact subperm_map _ hs
  · simpa using hl

/-- The address of the receiver is the server's. -/
theorem Honest.forward (hh : Honest cfg) (x : Fin K × Fin n) (d : Fin n) :
    cfg.net.serverAddresses[d]? = some (cfg.net.getHostname (cfg.parcel x).note.receiverID) ↔ d = (cfg.calls x.1).server := by
  have h1 := ((hh.parcels x.1).1 x.2).receiver
  have h2 := (hh.calls x.1).address
  rw [h1]
  constructor
  · intro h
    obtain ⟨a1, a2⟩ := List.getElem?_eq_some_iff.1 h
    obtain ⟨b1, b2⟩ := List.getElem?_eq_some_iff.1 h2
    have := (List.Nodup.getElem_inj_iff hh.addresses).1 (a2.trans b2.symm)
    exact Fin.ext this
  · rintro rfl; exact h2

end Resmix.Rrpc.CallSystem
