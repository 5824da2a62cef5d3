import Verif.Proofs.Parcel
import Verif.Proofs.EccCode
set_option autoImplicit false
/-
C40, C41: erasure coding and robust parcels.
-/
namespace Resmix.Ecc

/-- C40. Encoding a byte string (of any length) has one possible result whatever the order in which the workers finish; decoding
any view of it that lost at most `m` shards of each chunk, again in any order of completion, gives the byte string back. A stopped
coder may instead return its error, never anything else. -/
theorem C40_round_trip (C : RS) (data : Bytes) :
    ∃ shards, (∀ res, AuthEncode C false data res ↔ res = .ok shards) ∧
      (∀ stopped res, AuthEncode C stopped data res → res = .ok shards ∨ (stopped = true ∧ res = .error stoppedErr)) ∧
      shards.length = 36 ∧ (∀ chunk ∈ shards, chunk.length = C.k + C.m ∧ ∀ s ∈ chunk, s ≠ []) ∧
      ∀ view, Erasure C.m shards view →
        (∀ res, AuthReconstruct C false view data.length res ↔ res = .ok data) ∧
        ∀ stopped res, AuthReconstruct C stopped view data.length res →
          res = .ok data ∨ (stopped = true ∧ res = .error stoppedErr) := by
  refine ⟨coded C data, ?_, ?_, (Rrpc.coded_rows C data).1, (Rrpc.coded_rows C data).2, ?_⟩
  · intro res
    constructor
    · rintro (⟨h, _⟩ | ⟨order, ho, rfl⟩)
      · cases h
      · exact authEncodeIn_eq C data order ho
    · rintro rfl
      exact Or.inr ⟨_, List.Perm.refl _, (authEncodeIn_eq C data _ (List.Perm.refl _)).symm⟩
  · rintro stopped res (h | ⟨order, ho, rfl⟩)
    · exact Or.inr h
    · exact Or.inl (authEncodeIn_eq C data order ho)
  · intro view hv
    constructor
    · intro res
      constructor
      · rintro (⟨h, _⟩ | ⟨order, ho, rfl⟩)
        · cases h
        · exact authReconstructIn_eq C data view hv order ho
      · rintro rfl
        exact Or.inr ⟨_, List.Perm.refl _, (authReconstructIn_eq C data view hv _ (List.Perm.refl _)).symm⟩
    · rintro stopped res (h | ⟨order, ho, rfl⟩)
      · exact Or.inr h
      · exact Or.inl (authReconstructIn_eq C data view hv order ho)

/-- Codes exist for every number of data and parity shards up to 256 in total. -/
example (k m : Nat) (hk : 0 < k) (h : k + m ≤ 256) : ∃ C : RS, C.k = k ∧ C.m = m := ⟨rsCode k m hk h, rfl, rfl⟩

/-- Losing the first `m` shards of every chunk is a tolerable erasure. -/
example (C : RS) (data : Bytes) : ∃ shards view, AuthEncode C false data (.ok shards) ∧ Erasure C.m shards view ∧
    ∀ v ∈ view, v.take C.m = List.replicate C.m [] := by
  obtain ⟨shards, h1, _, _, h2, _⟩ := C40_round_trip C data
  refine ⟨shards, shards.map (fun s => List.replicate C.m [] ++ s.drop C.m), (h1 _).2 rfl, ?_, ?_⟩
  · unfold Erasure
    rw [List.forall₂_map_right_iff, List.forall₂_same]
    intro s hs
    have hsl := (h2 s hs).1
    constructor
    · rw [List.forall₂_iff_get]
      refine ⟨by simp; omega, ?_⟩
      intro i hi hi'
      simp only [List.get_eq_getElem]
      by_cases him : i < C.m
      · left; rw [List.getElem_append_left (by simpa using him)]; simp
      · right
        rw [List.getElem_append_right (by simpa using him)]
        simp only [List.length_replicate, List.getElem_drop]
        congr 1; omega
    · rw [List.countP_append]
      have h0 : (s.drop C.m).countP (· = []) = 0 := by
        rw [List.countP_eq_zero]
        intro a ha
        simpa using (h2 s hs).2 a (List.mem_of_mem_drop ha)
      rw [h0, Nat.add_zero]
      exact le_trans List.countP_le_length (by simp)
  · intro v hv
    obtain ⟨s, _, rfl⟩ := List.mem_map.1 hv
    rw [List.take_append_of_le_length (by simp)]
    simp

end Resmix.Ecc

namespace Resmix.Rrpc
open Resmix.Ecc

/-- The parameters of the code of a coordinator. -/
theorem coordinator_code {net : Network} {C : RS} (h : NewCoordinator net (.ok C)) :
    (C.k : Int) = net.minimalRelayedParcels ∧ (C.m : Int) = net.maxErrors ∧ C.k + C.m = net.serverAddresses.length := by
  obtain ⟨e, he, hr⟩ := h
  unfold NewEcc at he
  split at he
  · subst he; cases hr
  · obtain ⟨C', h1, h2, rfl⟩ := he
    injection hr with hr
    subst hr
    refine ⟨h1, h2, ?_⟩
    have : ((C.k + C.m : Nat) : Int) = net.serverAddresses.length := by push_cast; rw [h1, h2]; ring
    exact_mod_cast this

theorem subperm_indices {α : Type} {l : List α} {n : Nat} {f : Nat → α} (h : l.Subperm ((List.range n).map f)) :
    ∃ S : List Nat, S.Nodup ∧ (∀ r ∈ S, r < n) ∧ l = S.map f := by
  obtain ⟨l', hp, hs⟩ := h
  obtain ⟨T, hT, rfl⟩ := List.sublist_map_iff.1 hs
  have : ∃ S : List Nat, S.Perm T ∧ l = S.map f := by
    clear hs hT
    generalize hl' : T.map f = l'' at hp
    induction hp generalizing T with
    | nil => exact ⟨[], by rw [List.map_eq_nil_iff.1 hl'], rfl⟩
    | cons x hp ih =>
      obtain ⟨a, T', rfl, hax, hT'⟩ := List.map_eq_cons_iff.1 hl'
      obtain ⟨S, h1, h2⟩ := ih T' hT'
      exact ⟨a :: S, h1.cons a, by rw [List.map_cons, hax, h2]⟩
    | swap x y l =>
      obtain ⟨a, T', rfl, hax, hT'⟩ := List.map_eq_cons_iff.1 hl'
      obtain ⟨b, T'', rfl, hbx, hT''⟩ := List.map_eq_cons_iff.1 hT'
      exact ⟨b :: a :: T'', List.Perm.swap _ _ _, by rw [List.map_cons, List.map_cons, hax, hbx, hT'']⟩
    | trans _ _ ih1 ih2 =>
      obtain ⟨S, h1, h2⟩ := ih1 T hl'
      obtain ⟨S', h1', h2'⟩ := ih2 S h2.symm
      exact ⟨S', h1'.trans h1, h2'⟩
  obtain ⟨S, hST, rfl⟩ := this
  refine ⟨S, hST.nodup_iff.2 (hT.nodup List.nodup_range), ?_, rfl⟩
  intro r hr
  exact List.mem_range.1 (hT.subset (hST.mem_iff.1 hr))

/-- C41, requests. With the code of the coordinator, a call of fewer than 2^32 argument bytes is split into one parcel per server,
each carrying the method, the note, its position and the length; any MinimalRelayedParcels (or more) of these parcels, in any order
of arrival, are reassembled to exactly the argument bytes. -/
theorem C41_request_parcels (net : Network) (C : RS) (hC : NewCoordinator net (.ok C)) (method : Str) (note : ExchangeNote)
    (args : Bytes) (hlen : args.length < 2^32) :
    ∃ parcels, (∀ res, RequestIntoRobust C false net method note args res ↔ res = .ok parcels) ∧
      parcels.length = net.serverAddresses.length ∧
      (∀ (i : Nat) (p : Parcel), parcels[i]? = some p → p.relayIndex = (i : Int) ∧ p.method = method ∧ p.note = note ∧ p.messageLength = le32 args.length) ∧
      ∀ arrived : List Parcel, arrived.Subperm parcels → net.minimalRelayedParcels ≤ arrived.length →
        ∀ res, ReconstructParcels C false arrived res ↔ res = .ok args := by
  obtain ⟨hk, hm, hn⟩ := coordinator_code hC
  obtain ⟨hl, hrows⟩ := coded_rows C args
  obtain ⟨shards, henc, _, _, _, hdec⟩ := C40_round_trip C args
  have hsh : shards = coded C args := by
    have h1 : AuthEncode C false args (.ok (coded C args)) :=
      Or.inr ⟨_, List.Perm.refl _, (authEncodeIn_eq C args _ (List.Perm.refl _)).symm⟩
    have := (henc _).1 h1
    injection this with this
    exact this.symm
  subst hsh
  let f : Nat → Parcel := fun (i : Nat) =>
    { messageLength := le32 args.length, payload := col (coded C args) i, method := method, relayIndex := (i : Int), note := note, signature := none }
  have hpar : robustParcels net method note args (coded C args) = .ok ((List.range net.serverAddresses.length).map f) := by
    unfold robustParcels
    apply Shuffle.mapM_ok
    intro i hi
    unfold mkParcel
    rw [eccPayload_eq _ _ (fun row hrow => by rw [(hrows row hrow).1, hn]; exact List.mem_range.1 hi)]
    rfl
  refine ⟨(List.range net.serverAddresses.length).map f, ?_, by simp, ?_, ?_⟩
  · intro res
    unfold RequestIntoRobust
    rw [if_neg (by omega)]
    constructor
    · rintro ⟨enc, he, rfl⟩
      rw [(henc _).1 he]; exact hpar
    · rintro rfl
      exact ⟨_, (henc _).2 rfl, hpar.symm⟩
  · intro i p hp
    rw [List.getElem?_map] at hp
    obtain ⟨j, hj, rfl⟩ := Option.map_eq_some_iff.1 hp
    have hij : j = i := by
      have := List.getElem?_eq_some_iff.1 hj
      obtain ⟨h1, h2⟩ := this
      simpa using h2.symm
    subst hij
    exact ⟨rfl, rfl, rfl, rfl⟩
  · intro arrived harr hmin res
    obtain ⟨S, hnd, hS, rfl⟩ := subperm_indices harr
    rw [List.length_map] at hmin
    have hkS : C.k ≤ S.length := by rw [← hk] at hmin; exact_mod_cast hmin
    have hS' : ∀ r ∈ S, r < C.k + C.m := fun r hr => by rw [hn]; exact hS r hr
    have hfill := fill_eq C (coded C args) hl S hS'
    have her := cols_erasure C args S.reverse (List.nodup_reverse.2 hnd) (fun r hr => hS' r (List.mem_reverse.1 hr)) (by simpa using hkS)
    have hmap : (S.map f).map (fun p => (p.relayIndex, p.payload)) = S.map fun (r : Nat) => ((r : Int), col (coded C args) r) := by
      rw [List.map_map]; rfl
    have hkpos := C.kpos
    cases hS0 : S with
    | nil => rw [hS0] at hkS; simp at hkS; omega
    | cons r S' =>
      unfold ReconstructParcels
      rw [← hS0, hmap, hfill]
      rw [hS0, List.map_cons]
      simp only
      rw [show (f r).messageLength = le32 args.length from rfl, le32_uint32 _ hlen]
      simp only
      rw [← hS0]
      constructor
      · rintro ⟨out, ho, rfl⟩
        rw [(hdec _ her).1 out |>.1 ho]
      · rintro rfl
        exact ⟨_, ((hdec _ her).1 _).2 rfl, rfl⟩

/-- C41, the limit: a call of 2^32 or more argument bytes, and only such a call, is refused by the client before anything is sent. (With the code running, C41_request_parcels; there is
no such check for replies.) -/
theorem C41_too_long (net : Network) (C : RS) (hC : NewCoordinator net (.ok C)) (method : Str) (note : ExchangeNote) (args : Bytes) :
    (∃ e, RequestIntoRobust C false net method note args (.error e)) ↔ 2 ^ 32 ≤ args.length := by
  constructor
  · rintro ⟨e, he⟩
    by_contra hlt
    obtain ⟨parcels, h, _⟩ := C41_request_parcels net C hC method note args (by omega)
    cases (h _).1 he
  · intro h
    refine ⟨.err .unknown "message size is too big", ?_⟩
    unfold RequestIntoRobust
    rw [if_pos (by omega)]

/-- C41, replies. The reply bytes (fewer than 2^32) are split into one part per server; any MinimalRelayedParcels (or more) of these
parts, in any order of arrival, are reassembled by the client to exactly the reply bytes. -/
theorem C41_reply_parts (net : Network) (C : RS) (hC : NewCoordinator net (.ok C)) (reply : Bytes) (hlen : reply.length < 2^32) :
    ∃ parts, (∀ res, ReplyParts C false net reply res ↔ res = .ok parts) ∧ parts.length = net.serverAddresses.length ∧
      (∀ (i : Nat) (p : RrpcResponse), parts[i]? = some p → p.relayIndex = (i : Int)) ∧
      ∀ arrived : List RrpcResponse, arrived.Subperm parts → net.minimalRelayedParcels ≤ arrived.length →
        ∀ res, Reconstruct C false (arrived.map some) res ↔ res = .ok reply := by
  obtain ⟨hk, hm, hn⟩ := coordinator_code hC
  obtain ⟨hl, hrows⟩ := coded_rows C reply
  obtain ⟨shards, henc, _, _, _, hdec⟩ := C40_round_trip C reply
  have hsh : shards = coded C reply := by
    have h1 : AuthEncode C false reply (.ok (coded C reply)) :=
      Or.inr ⟨_, List.Perm.refl _, (authEncodeIn_eq C reply _ (List.Perm.refl _)).symm⟩
    have := (henc _).1 h1
    injection this with this
    exact this.symm
  subst hsh
  let f : Nat → RrpcResponse := fun (i : Nat) =>
    { messageLength := le32 reply.length, payload := col (coded C reply) i, relayIndex := (i : Int) }
  have hpar : (List.range net.serverAddresses.length).mapM (mkReply (le32 reply.length) (coded C reply)) =
      .ok ((List.range net.serverAddresses.length).map f) := by
    apply Shuffle.mapM_ok
    intro i hi
    unfold mkReply
    rw [eccPayload_eq _ _ (fun row hrow => by rw [(hrows row hrow).1, hn]; exact List.mem_range.1 hi)]
    rfl
  refine ⟨(List.range net.serverAddresses.length).map f, ?_, by simp, ?_, ?_⟩
  · intro res
    unfold ReplyParts
    constructor
    · rintro ⟨enc, he, rfl⟩
      rw [(henc _).1 he]; exact hpar
    · rintro rfl
      exact ⟨_, (henc _).2 rfl, hpar.symm⟩
  · intro i p hp
    rw [List.getElem?_map] at hp
    obtain ⟨j, hj, rfl⟩ := Option.map_eq_some_iff.1 hp
    have hij : j = i := by
      obtain ⟨h1, h2⟩ := List.getElem?_eq_some_iff.1 hj
      simpa using h2.symm
    subst hij
    rfl
  · intro arrived harr hmin res
    obtain ⟨S, hnd, hS, rfl⟩ := subperm_indices harr
    rw [List.length_map] at hmin
    have hkS : C.k ≤ S.length := by rw [← hk] at hmin; exact_mod_cast hmin
    have hS' : ∀ r ∈ S, r < C.k + C.m := fun r hr => by rw [hn]; exact hS r hr
    have hfill := fill_eq C (coded C reply) hl S hS'
    have her := cols_erasure C reply S.reverse (List.nodup_reverse.2 hnd) (fun r hr => hS' r (List.mem_reverse.1 hr)) (by simpa using hkS)
    have hkpos := C.kpos
    cases hS0 : S with
    | nil => rw [hS0] at hkS; simp at hkS; omega
    | cons r S' =>
      have hmapM : ((S.map f).map some).mapM respShards = .ok (S.map fun (r : Nat) => ((r : Int), col (coded C reply) r)) := by
        rw [Shuffle.mapM_ok _ (fun (q : Option RrpcResponse) => match q with | none => (0, []) | some r => (r.relayIndex, r.payload))]
        · rw [List.map_map, List.map_map]; rfl
        · intro q hq
          obtain ⟨a, _, rfl⟩ := List.mem_map.1 hq
          rfl
      unfold Reconstruct
      rw [← hS0, hmapM]
      simp only
      rw [hfill]
      rw [hS0, List.map_cons, List.map_cons]
      simp only
      rw [show (f r).messageLength = le32 reply.length from rfl, le32_uint32 _ hlen]
      simp only
      rw [← hS0]
      constructor
      · rintro ⟨out, ho, rfl⟩
        rw [(hdec _ her).1 out |>.1 ho]
      · rintro rfl
        exact ⟨_, ((hdec _ her).1 _).2 rfl, rfl⟩

/-- Networks with a code exist: five servers, tau = 2. -/
example : ∃ C, NewCoordinator (Network.new 2 [⟨[1], some [1]⟩, ⟨[2], some [2]⟩, ⟨[3], some [3]⟩, ⟨[4], some [4]⟩, ⟨[5], some [5]⟩]) (.ok C) := by
  have hlen : (Network.new 2 [⟨[1], some [1]⟩, ⟨[2], some [2]⟩, ⟨[3], some [3]⟩, ⟨[4], some [4]⟩, ⟨[5], some [5]⟩]).serverAddresses.length = 5 := by
    simp [Network.new, Network.addServer, Network.sortStrings]
  refine ⟨rsCode 4 1 (by decide) (by decide), .ok (rsCode 4 1 (by decide) (by decide)), ?_, rfl⟩
  unfold NewEcc
  rw [hlen]
  rw [if_neg (by simp [Network.maxErrors, Network.new, Network.addServer])]
  refine ⟨rsCode 4 1 (by decide) (by decide), ?_, ?_, rfl⟩
  · simp [rsCode, Network.maxErrors, Network.new, Network.addServer]
  · simp [rsCode, Network.maxErrors, Network.new, Network.addServer]

end Resmix.Rrpc
