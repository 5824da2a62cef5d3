import Verif.Proofs.Collector
import Verif.Spec.Collector
import Verif.Props.Tamper
import Verif.Props.Network
set_option autoImplicit false
/-
C53: how often and on what the handler of a robust call runs.
-/
namespace Resmix.Rrpc
open Resmix.Ecc
variable {μ : Type}

theorem reconstructParcels_unsigned (C : RS) (st : Bool) (ps : List Parcel) (res : Go Bytes) :
    ReconstructParcels C st (ps.map Parcel.unsigned) res ↔ ReconstructParcels C st ps res := by
  cases ps with
  | nil => exact Iff.rfl
  | cons p ps =>
    have h : ((p :: ps).map Parcel.unsigned).map (fun p => (p.relayIndex, p.payload)) = (p :: ps).map (fun p => (p.relayIndex, p.payload)) := by
      rw [List.map_map]; rfl
    unfold ReconstructParcels
    rw [h, List.map_cons]
    rfl

/-- The servers' parameters: between 1 and `n` parcels suffice. -/
theorem minimal_pos {net : Network} {C : RS} (hC : NewCoordinator net (.ok C)) : ((C.k : Nat) : Int) = net.minimalRelayedParcels ∧ 0 < C.k :=
  ⟨(coordinator_code hC).1, C.kpos⟩

theorem groups_mem {m : Nat} {ps g : List Parcel} (hm : 0 < m) (h : g ∈ groups m ps) : g.length = m ∧ g.Sublist ps := by
  unfold groups at h
  obtain ⟨j, hj, rfl⟩ := List.mem_map.1 h
  have hj := List.mem_range.1 hj
  constructor
  · rw [List.length_take, List.length_drop]
    have : j * m + m ≤ ps.length := by
      have h1 : (j + 1) * m ≤ ps.length / m * m := Nat.mul_le_mul_right _ hj
      have h2 := Nat.div_mul_le_self ps.length m
      rw [Nat.add_mul] at h1; omega
    omega
  · exact (List.take_sublist _ _).trans (List.drop_sublist _ _)

/-- For any arrival order, any interleaving with other calls and any loss: the handler runs once for every complete group of
`MinimalRelayedParcels` parcels, each time on the client's bytes. -/
theorem collector_runs (net : Network) (C : RS) (hC : NewCoordinator net (.ok C)) (lookup : Str → Go μ) (method : Str) (mm : μ)
    (hm : lookup method = .ok mm) (note : ExchangeNote) (args : Bytes) (hlen : args.length < 2 ^ 32) (parcels : List Parcel)
    (hp : RequestIntoRobust C false net method note args (.ok parcels)) (evs : List CEv)
    (ht : Timely net.minimalRelayedParcels.toNat 5000000000 note.calluuid evs)
    (harr : ((callParcels note.calluuid evs).map Parcel.unsigned).Subperm parcels) :
    (runsOf note.calluuid (collector net lookup evs)).length = (callParcels note.calluuid evs).length / net.minimalRelayedParcels.toNat ∧
      ∀ t ∈ runsOf note.calluuid (collector net lookup evs), Invokes C t mm note.calluuid args := by
  obtain ⟨hk, hkpos⟩ := minimal_pos hC
  have hmn : net.minimalRelayedParcels.toNat = C.k := by rw [← hk]; simp
  rw [hmn] at ht ⊢
  obtain ⟨parcels', hp1, hp2, hp3, hp4⟩ := C41_request_parcels net C hC method note args hlen
  have hpp : parcels = parcels' := by have := (hp1 _).1 hp; injection this
  subst hpp
  have hmeth : ∀ p ∈ callParcels note.calluuid evs, p.method = method := by
    intro p hpm
    have : p.unsigned ∈ parcels := harr.subset (List.mem_map_of_mem hpm)
    obtain ⟨i, hi⟩ := List.getElem?_of_mem this
    exact (hp3 i _ hi).2.1
  obtain ⟨-, -, -, -, h⟩ := collector_inv C.k hkpos 5000000000 lookup note.calluuid evs ht (fun p hpm => ⟨mm, by rw [hmeth p hpm]; exact hm⟩)
  have hcol : collector net lookup evs = (collectorRun (C.k : Int) 5000000000 lookup [] evs).2 := by unfold collector; rw [← hk]
  rw [hcol]
  refine ⟨by rw [h.length_eq]; simp [groups], ?_⟩
  intro t htm
  obtain ⟨i, hi⟩ := List.getElem?_of_mem htm
  obtain ⟨hil, hit⟩ := List.getElem?_eq_some_iff.1 hi
  have hig : i < (groups C.k (callParcels note.calluuid evs)).length := by rw [← h.length_eq]; exact hil
  have hrel := (List.forall₂_iff_get.1 h).2 i hil hig
  simp only [List.get_eq_getElem, hit] at hrel
  obtain ⟨r1, r2, ⟨q, hq, hqm⟩, -⟩ := hrel
  have hg := groups_mem hkpos (List.getElem_mem hig)
  set g := (groups C.k (callParcels note.calluuid evs))[i]
  have hqmem : q ∈ callParcels note.calluuid evs := hg.2.subset (List.mem_of_mem_head? hq)
  refine ⟨?_, r2, ?_⟩
  · rw [hmeth q hqmem, hm] at hqm; injection hqm with hqm; exact hqm.symm
  · intro res
    rw [r1, ← reconstructParcels_unsigned]
    exact hp4 _ ((hg.2.map _).subperm.trans harr) (by rw [List.length_map, hg.1, hk]) res

/-- C53, proved for networks in which more than half of the parcels are needed (all that `CreateCoordinator` sets up, see below) and
for calls whose parcels do not straddle a cleanup tick more than 5 s after the first. The parcels of the call reach the collector in any
order and interleaved with anything else; at most one per relay; at least `MinimalRelayedParcels` of them. Then the handler runs exactly
once for the call, on the bytes the client sent. -/
theorem C53_exactly_once_partial (net : Network) (C : RS) (hC : NewCoordinator net (.ok C))
    (hmaj : (net.serverAddresses.length : Int) < 2 * net.minimalRelayedParcels) (lookup : Str → Go μ) (method : Str) (mm : μ)
    (hm : lookup method = .ok mm) (note : ExchangeNote) (args : Bytes) (hlen : args.length < 2 ^ 32) (parcels : List Parcel)
    (hp : RequestIntoRobust C false net method note args (.ok parcels)) (evs : List CEv)
    (ht : Timely net.minimalRelayedParcels.toNat 5000000000 note.calluuid evs)
    (harr : ((callParcels note.calluuid evs).map Parcel.unsigned).Subperm parcels)
    (hmin : net.minimalRelayedParcels ≤ (callParcels note.calluuid evs).length) :
    ∃ t, runsOf note.calluuid (collector net lookup evs) = [t] ∧ Invokes C t mm note.calluuid args := by
  obtain ⟨h1, h2⟩ := collector_runs net C hC lookup method mm hm note args hlen parcels hp evs ht harr
  obtain ⟨hk, hkpos⟩ := minimal_pos hC
  have hle : (callParcels note.calluuid evs).length ≤ net.serverAddresses.length := by
    obtain ⟨parcels', hp1, hp2, -⟩ := C41_request_parcels net C hC method note args hlen
    have hpp : parcels = parcels' := by have := (hp1 _).1 hp; injection this
    have := harr.length_le
    rw [List.length_map, hpp, hp2] at this
    exact this
  have hone : (runsOf note.calluuid (collector net lookup evs)).length = 1 := by
    rw [h1]
    apply Nat.div_eq_of_lt_le <;> omega
  obtain ⟨t, ht⟩ := List.length_eq_one_iff.1 hone
  exact ⟨t, ht, h2 t (by rw [ht]; simp)⟩

/-- Networks set up by `CreateCoordinator` (tau is half of the number of peers) need more than half of the parcels. -/
theorem configNetwork_majority (peers : List ServerData) (h : ∀ s ∈ peers, ∃ a k, Registers s a k) :
    ((configNetwork peers).serverAddresses.length : Int) < 2 * (configNetwork peers).minimalRelayedParcels := by
  have hlen : (configNetwork peers).serverAddresses.length = peers.length := by
    unfold configNetwork
    rw [Network.new_addresses, (Network.sortStrings_perm _).length_eq, List.length_map]
    clear * - h
    induction peers with
    | nil => rfl
    | cons s ps ih =>
      obtain ⟨a, k, rfl, h2, h3⟩ := h s List.mem_cons_self
      have := ih (fun s hs => h s (List.mem_cons_of_mem _ hs))
      simp [registered, h2, h3] at this ⊢
      exact this
  unfold Network.minimalRelayedParcels Network.maxErrors
  rw [hlen]
  have : (configNetwork peers).tau = ((peers.length / 2 : Nat) : Int) := Network.new_tau _ _
  rw [this]; omega

/-- C53 fails in general, first way: when no more than half of the parcels are needed and all arrive, the handler runs at least twice
on the same bytes. -/
theorem C53_runs_twice_refuted (net : Network) (C : RS) (hC : NewCoordinator net (.ok C))
    (hmin : 2 * net.minimalRelayedParcels ≤ (net.serverAddresses.length : Int)) (lookup : Str → Go μ) (method : Str) (mm : μ)
    (hm : lookup method = .ok mm) (note : ExchangeNote) (args : Bytes) (hlen : args.length < 2 ^ 32) (parcels : List Parcel)
    (hp : RequestIntoRobust C false net method note args (.ok parcels)) (evs : List CEv)
    (ht : Timely net.minimalRelayedParcels.toNat 5000000000 note.calluuid evs)
    (harr : ((callParcels note.calluuid evs).map Parcel.unsigned).Perm parcels) :
    2 ≤ (runsOf note.calluuid (collector net lookup evs)).length ∧
      ∀ t ∈ runsOf note.calluuid (collector net lookup evs), Invokes C t mm note.calluuid args := by
  obtain ⟨h1, h2⟩ := collector_runs net C hC lookup method mm hm note args hlen parcels hp evs ht harr.subperm
  obtain ⟨hk, hkpos⟩ := minimal_pos hC
  refine ⟨?_, h2⟩
  have hle : (callParcels note.calluuid evs).length = net.serverAddresses.length := by
    obtain ⟨parcels', hp1, hp2, -⟩ := C41_request_parcels net C hC method note args hlen
    have hpp : parcels = parcels' := by have := (hp1 _).1 hp; injection this
    have := harr.length_eq
    rw [List.length_map, hpp, hp2] at this
    exact this
  rw [h1, Nat.le_div_iff_mul_le (by omega)]
  omega

theorem callParcels_map (u : Str) (ps : List Parcel) (t : Nat) (h : ∀ p ∈ ps, p.note.calluuid = u) : callParcels u (ps.map (CEv.parcel t)) = ps := by
  induction ps with
  | nil => rfl
  | cons p ps ih =>
    rw [List.map_cons]
    show callParcels u ([CEv.parcel t p] ++ _) = _
    rw [callParcels_append, ih (fun p hp => h p (List.mem_cons_of_mem _ hp))]
    simp [callParcels, h p List.mem_cons_self]

theorem timely_of_no_tick (m ttl : Nat) (u : Str) (evs : List CEv) (h : ∀ now, CEv.tick now ∉ evs) : Timely m ttl u evs := by
  intro pre now post he
  exact absurd (by rw [he]; simp) (h now)

/-- C53 fails in general, second way: a call whose first parcel is older than 5 s when the collector ticks loses that parcel; if exactly
`MinimalRelayedParcels` (at least 2) arrive in all, the handler never runs. -/
theorem C53_slow_parcels_refuted (net : Network) (lookup : Str → Go μ) (u : Str) (p0 : Parcel) (hp0 : p0.note.calluuid = u)
    (ps : List Parcel) (hps : ∀ p ∈ ps, p.note.calluuid = u) (hn : ((p0 :: ps).length : Int) = net.minimalRelayedParcels) (hne : ps ≠ [])
    (hl : ∀ p ∈ p0 :: ps, ∃ m, lookup p.method = .ok m) (t0 t1 t2 : Nat) (hlate : t0 + 5000000000 < t1) :
    runsOf u (collector net lookup (.parcel t0 p0 :: .tick t1 :: ps.map (.parcel t2))) = [] := by
  obtain ⟨m0, hm0⟩ := hl p0 List.mem_cons_self
  have hlen : 0 < ps.length := List.length_pos_iff.2 hne
  have hn' : net.minimalRelayedParcels = ((ps.length + 1 : Nat) : Int) := by rw [← hn]; simp
  have hcp : callParcels u (ps.map (CEv.parcel t2)) = ps := callParcels_map u ps t2 hps
  obtain ⟨-, -, -, -, h⟩ := collector_inv (ps.length + 1) (by omega) 5000000000 lookup u (ps.map (CEv.parcel t2))
    (by intro pre now post he
        have : CEv.tick now ∈ ps.map (CEv.parcel t2) := by rw [he]; simp
        obtain ⟨_, _, h⟩ := List.mem_map.1 this; cases h)
    (by rw [hcp]; exact fun p hp => hl p (List.mem_cons_of_mem _ hp))
  rw [hcp] at h
  have hg : groups (ps.length + 1) ps = [] := by
    unfold groups; rw [Nat.div_eq_of_lt (by omega)]; rfl
  rw [hg] at h
  have hrun := List.forall₂_nil_right_iff.1 h
  unfold collector
  rw [hn']
  have e1 : collectorStep ((ps.length + 1 : Nat) : Int) 5000000000 lookup [] (.parcel t0 p0) =
      ([(u, { parcels := [p0], savedNote := p0.note, startTime := t0, method := m0 })], []) := by
    simp only [collectorStep, getOrCreateTask, hm0]
    simp only [GoMap.lookup, GoMap.insert, List.find?_nil, Option.map_none, hp0]
    rw [if_pos (by simp only [List.nil_append, List.length_cons, List.length_nil]; push_cast; omega)]
    simp [GoMap.erase]
  have e2 : collectorStep ((ps.length + 1 : Nat) : Int) 5000000000 lookup
      [(u, ({ parcels := [p0], savedNote := p0.note, startTime := t0, method := m0 } : CTask μ))] (.tick t1) = ([], []) := by
    simp only [collectorStep, List.filter_cons, List.filter_nil]
    rw [if_neg (by simp; omega)]
  have : (collectorRun ((ps.length + 1 : Nat) : Int) 5000000000 lookup [] (.parcel t0 p0 :: .tick t1 :: ps.map (.parcel t2))).2 =
      (collectorRun ((ps.length + 1 : Nat) : Int) 5000000000 lookup [] (ps.map (.parcel t2))).2 := by
    rw [collectorRun]; simp only [e1]
    rw [collectorRun]; simp only [e2, List.nil_append]
  rw [this]; exact hrun

/-- Non-vacuity of C53: the parcels of any call, in reverse order, after a parcel of another call and before a tick. -/
example (net : Network) (C : RS) (hC : NewCoordinator net (.ok C)) (method : Str) (note : ExchangeNote)
    (hn : note.senderMerkleProof = none) (args : Bytes) (hlen : args.length < 2 ^ 32) (other : Parcel) (ho : other.note.calluuid ≠ note.calluuid) :
    ∃ parcels evs, RequestIntoRobust C false net method note args (.ok parcels) ∧ CEv.parcel 7 other ∈ evs ∧
      Timely net.minimalRelayedParcels.toNat 5000000000 note.calluuid evs ∧
      ((callParcels note.calluuid evs).map Parcel.unsigned).Subperm parcels ∧ net.minimalRelayedParcels ≤ (callParcels note.calluuid evs).length := by
  obtain ⟨hk, hm, hkm⟩ := coordinator_code hC
  set parcels := (List.range net.serverAddresses.length).map (parcelFor C method note args) with hp
  have hu : ∀ p ∈ parcels.reverse, p.note.calluuid = note.calluuid := by
    intro p h
    obtain ⟨i, -, rfl⟩ := List.mem_map.1 (List.mem_reverse.1 h); rfl
  have hcp : callParcels note.calluuid ([CEv.parcel 7 other] ++ parcels.reverse.map (CEv.parcel 8) ++ [.tick 9]) = parcels.reverse := by
    rw [callParcels_append, callParcels_append, callParcels_map _ _ _ hu]
    simp [callParcels, ho]
  refine ⟨parcels, [.parcel 7 other] ++ parcels.reverse.map (CEv.parcel 8) ++ [.tick 9], ?_, by simp, ?_, ?_, ?_⟩
  · rw [requestIntoRobust_iff hC method note args hlen]
  · intro pre now post he
    right
    intro t p hmem _
    have h9 : now = 9 := by
      have : CEv.tick now ∈ [CEv.parcel 7 other] ++ parcels.reverse.map (CEv.parcel 8) ++ [.tick 9] := by rw [he]; simp
      simpa using this
    omega
  · rw [hcp]
    have : parcels.reverse.map Parcel.unsigned = parcels.reverse := by
      conv_rhs => rw [← List.map_id parcels.reverse]
      apply List.map_congr_left
      intro p h
      obtain ⟨i, -, rfl⟩ := List.mem_map.1 (List.mem_reverse.1 h)
      cases note; simp_all [Parcel.unsigned, parcelFor]
    rw [this]
    exact (List.reverse_perm _).subperm
  · rw [hcp, List.length_reverse, hp, List.length_map, List.length_range, ← hk]
    omega

/-! ### C54 -/

theorem reconstruct_too_few (C : RS) (row : List Bytes) (h : row.countP (· ≠ []) < C.k) : reconstruct C row = .error eccErr := by
  unfold reconstruct
  split
  · rfl
  · split
    · rfl
    · split
      · rfl
      · rw [if_neg (by omega)]; try rw [if_pos h]

theorem authReconstruct_too_few (C : RS) (shards : List (List Bytes)) (hl : shards.length = numChunks) (h : ∀ row ∈ shards, row.countP (· ≠ []) < C.k)
    (size : Nat) (res : Go Bytes) : AuthReconstruct C false shards size res ↔ res = .error eccErr := by
  have hin : ∀ order : List Nat, order.Perm (List.range numChunks) → authReconstructIn C shards size order = .error eccErr := by
    intro order ho
    unfold authReconstructIn
    rw [if_neg (by omega)]
    match order, ho with
    | [], ho => have := ho.length_eq; simp [numChunks] at this
    | i :: order, ho =>
      have hi : i < shards.length := by rw [hl]; exact List.mem_range.1 (ho.subset List.mem_cons_self)
      rw [List.foldlM_cons]
      have : decodeArrival C shards (size + numChunks) (List.replicate (size + numChunks) 0) i = .error eccErr := by
        unfold decodeArrival authReconstruct
        rw [goIndex, List.getElem?_eq_getElem hi]
        simp only [bind, Except.bind]
        rw [reconstruct_too_few C _ (h _ (List.getElem_mem hi))]
      rw [this]
      rfl
  constructor
  · rintro (⟨h, -⟩ | ⟨order, ho, rfl⟩)
    · cases h
    · exact hin order ho
  · rintro rfl
    exact Or.inr ⟨_, List.Perm.refl _, (hin _ (List.Perm.refl _)).symm⟩

/-- Parcels of fewer than `k` relays, however often repeated, cannot be put together. -/
theorem reconstruct_repeated (C : RS) (method : Str) (note : ExchangeNote) (args : Bytes) (hlen : args.length < 2 ^ 32) (S : List Nat) (hne : S ≠ [])
    (hS : ∀ r ∈ S, r < C.k + C.m) (hd : S.dedup.length < C.k) (res : Go Bytes) :
    ReconstructParcels C false (S.map (parcelFor C method note args)) res ↔
      res = .error (.err .invalidArgument "server reconstruction failure") := by
  obtain ⟨hl, hrows⟩ := coded_rows C args
  have hfill := fill_eq C (coded C args) hl S hS
  have hmap : (S.map (parcelFor C method note args)).map (fun p => (p.relayIndex, p.payload)) = S.map fun (r : Nat) => ((r : Int), col (coded C args) r) := by
    rw [List.map_map]; rfl
  have hfew : ∀ row ∈ cols (coded C args) (C.k + C.m) S.reverse, row.countP (· ≠ []) < C.k := by
    intro row hrow
    obtain ⟨c, -, rfl⟩ := List.mem_map.1 hrow
    rw [List.countP_map]
    refine lt_of_le_of_lt ?_ hd
    have h1 := countP_missing (C.k + C.m) S.dedup (List.nodup_dedup S) (fun r hr => hS r (List.mem_dedup.1 hr))
    have h2 := List.length_eq_countP_add_countP (fun r => decide (r ∉ S.dedup)) (l := List.range (C.k + C.m))
    rw [List.length_range] at h2
    refine le_trans (List.countP_mono_left ?_) (show (List.range (C.k + C.m)).countP (fun a => decide ¬ decide (a ∉ S.dedup) = true) ≤ S.dedup.length by omega)
    intro r _ hr
    simp only [Function.comp, decide_eq_true_eq, List.mem_dedup, not_not] at hr ⊢
    by_contra hc
    rw [if_neg (by simpa using hc)] at hr
    exact hr rfl
  cases hS0 : S with
  | nil => exact absurd hS0 hne
  | cons r S' =>
    unfold ReconstructParcels
    rw [← hS0, hmap, hfill, hS0, List.map_cons]
    simp only
    rw [show (parcelFor C method note args r).messageLength = le32 args.length from rfl, le32_uint32 _ hlen]
    simp only
    rw [← hS0]
    have hiff := authReconstruct_too_few C (cols (coded C args) (C.k + C.m) S.reverse) (by rw [cols_length, hl]) hfew args.length
    constructor
    · rintro ⟨out, ho, rfl⟩
      rw [(hiff out).1 ho]; rfl
    · rintro rfl
      exact ⟨_, (hiff _).2 rfl, rfl⟩

/-- The status of the error a server sends when it cannot put the parcels together. -/
def serverFailure : RpcStatus := { code := 3, message := "server reconstruction failure".toUTF8.toList }

/-- All relays answer with the same error of the server. -/
theorem robust_all_errors (net : Network) (C : RS) (h1 : 1 ≤ net.tau) (h2 : net.tau ≤ net.serverAddresses.length) (s : RpcStatus) (hs : s.code ≠ 0)
    (as : List Answer) (hn : as.length = net.serverAddresses.length)
    (hall : ∀ a ∈ as, a.1.relayStreamError = none ∧ ∃ c, a.1.response = some c ∧ c.rpcError = some s) (more : List RobustEv) (res : Option (Except CallErr Bytes)) :
    RobustReply C false net (as.map Answer.ev ++ more) res ↔ res = some (.error (.status s)) := by
  have hv : ∀ a ∈ as, validateRrpcResponse a.2 a.1 = .error (.status s) := by
    intro a ha
    obtain ⟨e1, c, e2, e3⟩ := hall a ha
    simp only [validateRrpcResponse, e1, e2, e3, statusErr, if_neg hs]
  have hna : ∀ a ∈ as, a.accepted = false := by
    intro a ha; cases h : a.accepted with
    | false => rfl
    | true => have := (accepted_iff a).1 h; rw [hv a ha] at this; cases this
  have hbad : as.countP (fun a => !a.accepted) = as.length := List.countP_eq_length.2 (fun a ha => by simp [hna a ha])
  have hgood : as.countP (·.accepted) = 0 := by
    rw [List.countP_eq_zero]; intro a ha; simp [hna a ha]
  obtain ⟨a, e, ha, he, hr⟩ := loop_failure net.minimalRelayedParcels net.maxErrors as more 0 [] (by unfold Network.maxErrors; omega)
    (fun a ha hc => by rw [crashes_iff] at hc; rw [hv a ha] at hc; cases hc)
    (by rw [hbad, hn]; unfold Network.maxErrors; omega) (by rw [hgood]; unfold Network.minimalRelayedParcels Network.maxErrors; simp; omega)
  have hmem : a ∈ as := (List.mem_filter.1 (List.mem_of_getElem? ha)).1
  rw [hv a hmem] at he
  injection he with he; subst he
  unfold RobustReply robustRequest
  rw [hr]

/-- Signing the responses of a task keeps their contents; every note verifies. -/
theorem signOutput_ok (S : SigScheme) (H : Merkle.HashFn) (cod : Codec) (sk : S.Sk) (saved : ExchangeNote) (rs : Responses) (hne : rs.1 ≠ [])
    (note : ExchangeNote) (hr : note.receiverMerkleProof = none) (hnote : ∀ r ∈ rs.1, r.note = some note) (hlen : rs.1.length ≤ 2 ^ 64) :
    ∃ out, signOutput S H cod sk saved rs = .ok out ∧ out.length = rs.1.length ∧
      ∀ (i : Nat) (c : CallStreamResponse), out[i]? = some c → ∃ r, rs.1[i]? = some r ∧ c.response = r.response ∧ c.rpcError = r.rpcError ∧
        c.publicKey = r.publicKey ∧ ∃ n, c.note = some n ∧ { n with receiverMerkleProof := none } = note ∧
          ∀ cache : Cache, (verifyReceiverNote S H cod cache (S.pub sk) n).1 = .ok () := by
  obtain ⟨l, shared⟩ := rs
  match l, hne, hnote, hlen with
  | r0 :: rest, _, hnote, hlen =>
    simp only at hnote hlen
    obtain ⟨notes, h1, h2, h3⟩ := C45_responses S H cod sk shared (r0 :: rest).length hlen note hr
    have e0 : r0.note.getD saved = note := by rw [hnote r0 List.mem_cons_self]; rfl
    refine ⟨List.zipWith (fun r n => { r with note := some n }) (r0 :: rest) notes, by simp only [signOutput]; rw [e0, h1], ?_, ?_⟩
    · rw [List.length_zipWith, h2, Nat.min_self]
    · intro i c hc
      rw [List.getElem?_zipWith_eq_some] at hc
      obtain ⟨r, n, hri, hni, rfl⟩ := hc
      refine ⟨r, hri, rfl, rfl, rfl, n, rfl, ?_⟩
      exact h3 n (List.mem_of_getElem? hni)

/-- C54 fails. One relay (fewer than the tolerated `MaxErrors`) delivers its own, correctly signed parcel twice; every other relay is honest and
delivers its parcel once. Every parcel is accepted by the server, the handler never runs, the only thing the server sends is an error to
every relay, and the client's call fails whatever the order in which the relays pass the error on. -/
theorem C54_duplicate_refuted (S : SigScheme) (H : Merkle.HashFn) (cod : Codec) (ck sk : S.Sk) (net : Network) (C : RS) (hC : NewCoordinator net (.ok C))
    (hmax : 1 ≤ net.maxErrors) (hmaj : (net.serverAddresses.length : Int) + 1 < 2 * net.minimalRelayedParcels) (hnet : 2 * net.serverAddresses.length ≤ 2 ^ 64)
    (lookup : Str → Go μ) (method : Str) (mm : μ) (hm : lookup method = .ok mm) (note : ExchangeNote) (hs : note.senderID = S.pub ck)
    (hn1 : note.senderMerkleProof = none) (hn2 : note.receiverMerkleProof = none) (args : Bytes) (hlen : args.length < 2 ^ 32) :
    ∃ parcels out, RequestIntoRobust C false net method note args (.ok parcels) ∧ signRobust S H cod ck parcels = .ok out ∧
      (∀ (i : Nat) (q : Parcel), out[i]? = some q → ∀ cache : Cache, (validateParcel S H cod cache false i q).1 = .ok ()) ∧
      ∃ t, runsOf note.calluuid (collector net lookup ((out.take 1 ++ out).map (CEv.parcel 0))) = [t] ∧
        ∀ (handler : μ → Str → Bytes → Except SvcErr Bytes) (buf : Bytes) (res : Go (List CallStreamResponse)),
          TaskOutput S H cod sk C false net handler buf t res → ∃ resps, res = .ok resps ∧ resps.length = net.serverAddresses.length ∧
            ∀ as : List Answer, (as.map fun a => a.1.response).Perm (resps.map some) → (∀ a ∈ as, a.1.relayStreamError = none) →
              ∀ r, RobustReply C false net (as.map Answer.ev) r ↔ r = some (.error (.status serverFailure)) := by
  obtain ⟨parcels, out, hp, hsign, hol, hout⟩ := C74_honest_parcel_accepted_partial S H cod ck net C hC method note hs hn1 args hlen hnet
  obtain ⟨hk, hm', hkm⟩ := coordinator_code hC
  have hparcels : parcels = (List.range net.serverAddresses.length).map (parcelFor C method note args) := by
    have := (requestIntoRobust_iff hC method note args hlen _).1 ((hp _).2 rfl)
    injection this
  refine ⟨parcels, out, (hp _).2 rfl, hsign, fun i q h => (hout i q h).2, ?_⟩
  have hkpos := C.kpos
  have hn0 : 0 < out.length := by rw [hol]; omega
  have hun : ∀ (i : Nat) (q : Parcel), out[i]? = some q → q.unsigned = parcelFor C method note args i := by
    intro i q hq
    have := (hout i q hq).1
    rw [hparcels, List.getElem?_map] at this
    obtain ⟨j, hj, h⟩ := Option.map_eq_some_iff.1 this
    obtain ⟨_, h2⟩ := List.getElem?_eq_some_iff.1 hj
    have : j = i := by simpa using h2.symm
    subst this; exact h.symm
  have huq : ∀ q ∈ out, q.note.calluuid = note.calluuid ∧ q.method = method ∧ q.note.receiverMerkleProof = none := by
    intro q hq
    obtain ⟨i, hi⟩ := List.getElem?_of_mem hq
    have := hun i q hi
    exact ⟨(congrArg (fun p : Parcel => p.note.calluuid) this :), (congrArg (fun p : Parcel => p.method) this :),
      ((congrArg (fun p : Parcel => p.note.receiverMerkleProof) this :) : q.note.receiverMerkleProof = _).trans hn2⟩
  have hmem : ∀ q ∈ out.take 1 ++ out, q ∈ out := by
    intro q hq
    rcases List.mem_append.1 hq with h | h
    · exact List.mem_of_mem_take h
    · exact h
  have hcp : callParcels note.calluuid ((out.take 1 ++ out).map (CEv.parcel 0)) = out.take 1 ++ out :=
    callParcels_map _ _ _ (fun q hq => (huq q (hmem q hq)).1)
  obtain ⟨-, -, -, -, hinv⟩ := collector_inv C.k hkpos 5000000000 lookup note.calluuid ((out.take 1 ++ out).map (CEv.parcel 0))
    (timely_of_no_tick _ _ _ _ (fun now h => by obtain ⟨_, _, h⟩ := List.mem_map.1 h; cases h)) (by
      rw [hcp]; intro q hq; exact ⟨mm, by rw [(huq q (hmem q hq)).2.1]; exact hm⟩)
  rw [hcp] at hinv
  have hlen' : (out.take 1 ++ out).length = net.serverAddresses.length + 1 := by
    rw [List.length_append, List.length_take, hol]; omega
  have hk1 : 1 ≤ C.k - 1 := by omega
  have hgr : groups C.k (out.take 1 ++ out) = [(out.take 1 ++ out).take C.k] := by
    unfold groups
    rw [hlen', Nat.div_eq_of_lt_le (k := 1) (by omega) (by omega)]
    simp
  rw [hgr] at hinv
  have hcol : collector net lookup ((out.take 1 ++ out).map (CEv.parcel 0)) = (collectorRun (C.k : Int) 5000000000 lookup [] ((out.take 1 ++ out).map (CEv.parcel 0))).2 := by
    unfold collector; rw [hk]
  rw [hcol]
  obtain ⟨t, ts, ht, hts, htt⟩ := List.forall₂_cons_right_iff.1 hinv
  have hnil := List.forall₂_nil_right_iff.1 hts
  subst hnil
  refine ⟨t, htt, ?_⟩
  obtain ⟨t1, t2, -, q0, t3, t4⟩ := ht
  -- what the task's parcels are
  have hS : t.parcels.map Parcel.unsigned = (0 :: List.range (C.k - 1)).map (parcelFor C method note args) := by
    rw [t1]
    apply List.ext_getElem
    · simp only [List.length_map, List.length_take, List.length_append, List.length_cons, List.length_range, hol]; omega
    · intro i h1 h2
      simp only [List.getElem_map, List.getElem_take]
      have hlt1 : (out.take 1).length = 1 := by rw [List.length_take]; omega
      rcases i with _ | i
      · rw [List.getElem_append_left (by omega)]
        simp only [List.getElem_take, List.getElem_cons_zero]
        exact hun 0 _ (List.getElem?_eq_getElem hn0)
      · rw [List.getElem_append_right (by omega)]
        simp only [hlt1, Nat.add_sub_cancel, List.getElem_cons_succ, List.getElem_range]
        simp only [List.length_map, List.length_cons, List.length_range] at h2
        exact hun i _ (List.getElem?_eq_getElem (by omega))
  have hdd : (0 :: List.range (C.k - 1)).dedup.length < C.k := by
    rw [List.dedup_cons_of_mem (List.mem_range.2 (by omega)), List.Nodup.dedup List.nodup_range, List.length_range]; omega
  have hrec : ∀ res, ReconstructParcels C false t.parcels res ↔ res = .error (.err .invalidArgument "server reconstruction failure") := by
    intro res
    rw [← reconstructParcels_unsigned, hS]
    refine reconstruct_repeated C method note args hlen _ (by simp) ?_ hdd res
    intro r hr
    rcases List.mem_cons.1 hr with rfl | hr
    · omega
    · have := List.mem_range.1 hr; omega
  have hnote : t.savedNote.receiverMerkleProof = none := by
    rw [t4]
    have : q0 ∈ out := hmem q0 (List.mem_of_mem_take (List.mem_of_mem_head? t3))
    exact (huq q0 this).2.2
  intro handler buf res ho
  obtain ⟨r, hr, hres⟩ := ho
  obtain ⟨pl, hpl, hrr⟩ := hr
  rw [(hrec pl).1 hpl] at hrr
  simp only at hrr
  subst hrr
  obtain ⟨resps, o1, o2, o3⟩ := signOutput_ok S H cod sk t.savedNote (errorResponses net (S.pub sk) t.savedNote serverFailure)
    (List.length_pos_iff.1 (by rw [show (errorResponses net (S.pub sk) t.savedNote serverFailure).1.length = net.serverAddresses.length by simp [errorResponses]]; omega)) { t.savedNote with receiverMerkleProof := none } rfl (by intro r hr; simp [errorResponses] at hr; obtain ⟨a, -, rfl⟩ := hr; rfl)
    (by simp [errorResponses]; omega)
  have hres' : res = .ok resps := by rw [hres]; exact o1
  refine ⟨resps, hres', by rw [o2]; simp [errorResponses], ?_⟩
  intro as has hrel r
  have := robust_all_errors net C (by unfold Network.maxErrors at hmax; omega) (by unfold Network.minimalRelayedParcels at hk; unfold Network.maxErrors at hk; omega) serverFailure
    (by simp [serverFailure]) as (by
      have := has.length_eq
      simp only [List.length_map] at this
      rw [this, o2]; simp [errorResponses]) (by
      intro a ha
      refine ⟨hrel a ha, ?_⟩
      have : a.1.response ∈ resps.map some := has.subset (List.mem_map.2 ⟨a, ha, rfl⟩)
      obtain ⟨c, hc, hce⟩ := List.mem_map.1 this
      refine ⟨c, hce.symm, ?_⟩
      obtain ⟨i, hi⟩ := List.getElem?_of_mem hc
      obtain ⟨r0, hr0, -, e2, -, -⟩ := o3 i c hi
      rw [e2]
      have := List.mem_of_getElem? hr0
      simp [errorResponses] at this
      obtain ⟨a, -, rfl⟩ := this; rfl) [] r
  rwa [List.append_nil] at this

theorem subperm_map {α β : Type} (f : α → β) {a b : List α} (h : a.Subperm b) : (a.map f).Subperm (b.map f) := by
  obtain ⟨l', hp, hs⟩ := h
  exact ⟨l'.map f, hp.map f, hs.map f⟩

/-- The answer of a relay that passes on the server's response `c` unchanged, as judged by a client whose verifier remembers `cache`. -/
def passOn (S : SigScheme) (H : Merkle.HashFn) (cod : Codec) (cache : Cache) (server : Bytes) (u : Str) (c : CallStreamResponse) : Answer :=
  ({ relayStreamError := none, uuid := u, response := some c },
   match c.note with | none => .error .panic | some n => (verifyReceiverNote S H cod cache server n).1)

/-- What becomes of the responses of a task that runs a handler. -/
theorem task_replies (S : SigScheme) (H : Merkle.HashFn) (cod : Codec) (sk : S.Sk) (net : Network) (C : RS) (hC : NewCoordinator net (.ok C))
    (h1 : 1 ≤ net.tau) (hnet : 2 * net.serverAddresses.length ≤ 2 ^ 64) (t : CTask μ) (mm : μ) (u : Str) (args : Bytes) (hinv : Invokes C t mm u args)
    (hnote : t.savedNote.receiverMerkleProof = none) (handler : μ → Str → Bytes → Except SvcErr Bytes) (bytes : Bytes)
    (hh : handler mm u args = .ok bytes) (hbl : bytes.length < 2 ^ 32) :
    ∃ resps, (∀ res, TaskOutput S H cod sk C false net handler [] t res ↔ res = .ok resps) ∧ resps.length = net.serverAddresses.length ∧
      (∀ c ∈ resps, ∀ cache, (passOn S H cod cache (S.pub sk) u c).accepted = true) ∧
      ∀ (as : List Answer) (more : List RobustEv), ((as.filter (·.accepted)).map fun a => a.1.response).Subperm (resps.map some) →
        net.minimalRelayedParcels ≤ (as.filter (·.accepted)).length → (∀ a ∈ as, ¬ a.crashes) →
        (as.countP (fun a => !a.accepted) : Int) ≤ net.maxErrors →
        ∀ r, RobustReply C false net (as.map Answer.ev ++ more) r ↔ r = some (.ok bytes) := by
  obtain ⟨hk, hm', hkm⟩ := coordinator_code hC
  have hkpos := C.kpos
  obtain ⟨i1, i2, i3⟩ := hinv
  obtain ⟨parts, p1, p2, p3, p4⟩ := C41_reply_parts net C hC bytes hbl
  have hnpos : 0 < net.serverAddresses.length := by omega
  have hrl : (replyResponses (S.pub sk) t.savedNote parts).1.length = net.serverAddresses.length := by
    simp [replyResponses, p2]
  obtain ⟨resps, o1, o2, o3⟩ := signOutput_ok S H cod sk t.savedNote (replyResponses (S.pub sk) t.savedNote parts)
    (List.length_pos_iff.1 (by rw [hrl]; exact hnpos)) t.savedNote hnote (by
      intro r hr; obtain ⟨p, -, rfl⟩ := List.mem_map.1 hr; rfl) (by rw [hrl]; omega)
  have hrun : ∀ rr, RunTask C false net (S.pub sk) handler [] t rr ↔ rr = .ok (replyResponses (S.pub sk) t.savedNote parts) := by
    intro rr
    unfold RunTask
    constructor
    · rintro ⟨pl, a1, a2⟩
      rw [(i3 pl).1 a1] at a2
      simp only [i1, i2, hh] at a2
      obtain ⟨ps, b1, b2⟩ := a2
      rw [List.nil_append] at b1
      rw [(p1 ps).1 b1] at b2
      exact b2
    · rintro rfl
      refine ⟨.ok args, (i3 _).2 rfl, ?_⟩
      simp only [i1, i2, hh]
      exact ⟨.ok parts, by rw [List.nil_append]; exact (p1 _).2 rfl, rfl⟩
  have hrespparts : resps.map (·.response) = parts.map some := by
    apply List.ext_getElem?
    intro i
    rw [List.getElem?_map, List.getElem?_map]
    cases hr : resps[i]? with
    | none =>
      have := List.getElem?_eq_none_iff.1 hr
      rw [List.getElem?_eq_none (by rw [o2, hrl] at this; omega)]; rfl
    | some c =>
      obtain ⟨r, hr1, hr2, -⟩ := o3 i c hr
      simp only [replyResponses, List.getElem?_map] at hr1
      obtain ⟨p, hp, rfl⟩ := Option.map_eq_some_iff.1 hr1
      rw [hp]; simp [hr2]
  refine ⟨resps, ?_, by rw [o2, hrl], ?_, ?_⟩
  · intro res
    unfold TaskOutput
    constructor
    · rintro ⟨rr, a1, a2⟩
      rw [(hrun rr).1 a1] at a2
      rw [a2]; exact o1
    · rintro rfl
      exact ⟨_, (hrun _).2 rfl, o1.symm⟩
  · intro c hc cache
    obtain ⟨i, hi⟩ := List.getElem?_of_mem hc
    obtain ⟨r, hr1, hr2, hr3, -, n, hn, -, hv⟩ := o3 i c hi
    rw [accepted_iff]
    have hre : c.rpcError = none := by
      rw [hr3]
      obtain ⟨p, -, rfl⟩ := List.mem_map.1 (List.mem_of_getElem? hr1); rfl
    simp only [passOn, validateRrpcResponse, hre, hn, hv cache, liftGo]
  · intro as more hsubp hcount hcr hbad r
    have hgoodc : (as.countP (·.accepted) : Int) = (as.filter (·.accepted)).length := by rw [List.countP_eq_length_filter]
    have hloop := loop_success net.minimalRelayedParcels net.maxErrors as more 0 [] (by simp; omega) hcr (by omega) (by simp; omega)
    unfold RobustReply robustRequest
    rw [hloop]
    simp only [List.nil_append]
    set sel := ((as.filter (·.accepted)).take (net.minimalRelayedParcels - (([] : List (Option CallStreamResponse)).length : Int)).toNat) with hsel
    have hsell : (sel.length : Int) = net.minimalRelayedParcels := by
      rw [hsel, List.length_take]; simp; omega
    have hss : (sel.map fun a => a.1.response).Subperm (resps.map some) :=
      ((List.take_sublist _ _).map _).subperm.trans hsubp
    -- the reply parts that were selected
    have hparts : ∃ arrived : List RrpcResponse, ((sel.map fun a => a.1.response).map fun r => r.bind (·.response)) = arrived.map some ∧ arrived.Subperm parts := by
      have h2 : ((sel.map fun a => a.1.response).map fun r => r.bind (·.response)).Subperm (parts.map some) := by
        have := subperm_map (fun (r : Option CallStreamResponse) => r.bind (·.response)) hss
        rw [List.map_map (g := fun (r : Option CallStreamResponse) => r.bind (·.response)) (f := some)] at this
        rw [← hrespparts]
        exact this
      obtain ⟨l', hl1, hl2⟩ := h2
      obtain ⟨l2, hl3, rfl⟩ := List.sublist_map_iff.1 hl2
      refine ⟨((sel.map fun a => a.1.response).map fun r => r.bind (·.response)).reduceOption, ?_, ?_⟩
      · have hall : ∀ x ∈ ((sel.map fun a => a.1.response).map fun r => r.bind (·.response)), x.isSome := by
          intro x hx
          obtain ⟨y, -, rfl⟩ := List.mem_map.1 (hl1.symm.subset hx); rfl
        generalize ((sel.map fun a => a.1.response).map fun r => r.bind (·.response)) = L at hall
        clear * - hall
        induction L with
        | nil => rfl
        | cons x L ih =>
          obtain ⟨y, rfl⟩ := Option.isSome_iff_exists.1 (hall x List.mem_cons_self)
          rw [show List.reduceOption (some y :: L) = y :: List.reduceOption L from rfl, List.map_cons, ← ih (fun x hx => hall x (List.mem_cons_of_mem _ hx))]
      · have h3 : (((sel.map fun a => a.1.response).map fun r => r.bind (·.response)).reduceOption).Perm (l2.map some).reduceOption :=
          hl1.symm.filterMap _
        have h4 : (l2.map some).reduceOption = l2 := by simp [List.reduceOption]
        rw [h4] at h3
        exact h3.subperm.trans hl3.subperm
    obtain ⟨arrived, ha1, ha2⟩ := hparts
    rw [ha1]
    have hal : (arrived.length : Int) = net.minimalRelayedParcels := by
      have := congrArg List.length ha1
      simp only [List.length_map] at this
      rw [← this]; exact hsell
    have := p4 arrived ha2 hal.symm.le
    constructor
    · rintro ⟨o, a1, rfl⟩
      rw [(this o).1 a1]; rfl
    · rintro rfl
      exact ⟨_, (this _).2 rfl, rfl⟩

/-- C54 for relays that only lose parcels, lose answers, or answer what the client rejects without crashing (C72). An honest client makes and signs
the parcels of a call. At least `MinimalRelayedParcels` of them (one per relay at most) reach the server in time, in any order and among
the parcels of other calls. The handler then runs once, on the client's bytes. If it returns `bytes` (written to an empty buffer, see C55),
the server sends one response to every relay; a response passed on unchanged is accepted by the client; and as soon as the client has
accepted answers for `MinimalRelayedParcels` of the server's responses, and rejected at most `MaxErrors` others, in any order, the
call returns exactly `bytes`. -/
theorem C54_crash_faults_partial (S : SigScheme) (H : Merkle.HashFn) (cod : Codec) (ck sk : S.Sk) (net : Network) (C : RS) (hC : NewCoordinator net (.ok C))
    (h1 : 1 ≤ net.tau) (hmaj : (net.serverAddresses.length : Int) < 2 * net.minimalRelayedParcels) (hnet : 2 * net.serverAddresses.length ≤ 2 ^ 64)
    (lookup : Str → Go μ) (method : Str) (mm : μ) (hm : lookup method = .ok mm) (note : ExchangeNote) (hs : note.senderID = S.pub ck)
    (hn1 : note.senderMerkleProof = none) (hn2 : note.receiverMerkleProof = none) (args : Bytes) (hlen : args.length < 2 ^ 32) :
    ∃ parcels out, RequestIntoRobust C false net method note args (.ok parcels) ∧ signRobust S H cod ck parcels = .ok out ∧
      (∀ (i : Nat) (q : Parcel), out[i]? = some q → ∀ cache : Cache, (validateParcel S H cod cache false i q).1 = .ok ()) ∧
      ∀ evs : List CEv, Timely net.minimalRelayedParcels.toNat 5000000000 note.calluuid evs → (callParcels note.calluuid evs).Subperm out →
        net.minimalRelayedParcels ≤ (callParcels note.calluuid evs).length →
        ∃ t, runsOf note.calluuid (collector net lookup evs) = [t] ∧ Invokes C t mm note.calluuid args ∧
          ∀ (handler : μ → Str → Bytes → Except SvcErr Bytes) (bytes : Bytes), handler mm note.calluuid args = .ok bytes → bytes.length < 2 ^ 32 →
            ∃ resps, (∀ res, TaskOutput S H cod sk C false net handler [] t res ↔ res = .ok resps) ∧ resps.length = net.serverAddresses.length ∧
              (∀ c ∈ resps, ∀ cache, (passOn S H cod cache (S.pub sk) note.calluuid c).accepted = true) ∧
              ∀ (as : List Answer) (more : List RobustEv), ((as.filter (·.accepted)).map fun a => a.1.response).Subperm (resps.map some) →
                net.minimalRelayedParcels ≤ (as.filter (·.accepted)).length → (∀ a ∈ as, ¬ a.crashes) →
                (as.countP (fun a => !a.accepted) : Int) ≤ net.maxErrors →
                ∀ r, RobustReply C false net (as.map Answer.ev ++ more) r ↔ r = some (.ok bytes) := by
  obtain ⟨parcels, out, hp, hsign, hol, hout⟩ := C74_honest_parcel_accepted_partial S H cod ck net C hC method note hs hn1 args hlen hnet
  obtain ⟨hk, hm', hkm⟩ := coordinator_code hC
  have hkpos := C.kpos
  refine ⟨parcels, out, (hp _).2 rfl, hsign, fun i q h => (hout i q h).2, ?_⟩
  have hpl : parcels.length = net.serverAddresses.length := by
    obtain ⟨p', a1, a2, -⟩ := C41_request_parcels net C hC method note args hlen
    have : parcels = p' := by have := (a1 _).1 ((hp _).2 rfl); injection this
    rw [this, a2]
  have hmap : out.map Parcel.unsigned = parcels := by
    apply List.ext_getElem?
    intro i
    rw [List.getElem?_map]
    cases ho : out[i]? with
    | some q => rw [(hout i q ho).1]; rfl
    | none =>
      have := List.getElem?_eq_none_iff.1 ho
      rw [List.getElem?_eq_none (by omega)]; rfl
  intro evs htim harr hmin
  have hsub : ((callParcels note.calluuid evs).map Parcel.unsigned).Subperm parcels := by
    rw [← hmap]; exact subperm_map _ harr
  obtain ⟨t, ht, hinv⟩ := C53_exactly_once_partial net C hC hmaj lookup method mm hm note args hlen parcels ((hp _).2 rfl) evs htim hsub hmin
  refine ⟨t, ht, hinv, ?_⟩
  obtain ⟨i1, i2, i3⟩ := hinv
  intro handler bytes hh hbl
  -- the note of the task
  have hnote : t.savedNote.receiverMerkleProof = none := by
    have hmt : t ∈ runsOf note.calluuid (collector net lookup evs) := by rw [ht]; simp
    obtain ⟨-, -, -, -, hf⟩ := collector_inv C.k hkpos 5000000000 lookup note.calluuid evs (by
        have : net.minimalRelayedParcels.toNat = C.k := by rw [← hk]; simp
        rw [← this]; exact htim) (fun p hpm => ⟨mm, by
          have : p.unsigned ∈ parcels := hsub.subset (List.mem_map_of_mem hpm)
          obtain ⟨i, hi⟩ := List.getElem?_of_mem this
          obtain ⟨p', a1, a2, a3, -⟩ := C41_request_parcels net C hC method note args hlen
          have he : parcels = p' := by have := (a1 _).1 ((hp _).2 rfl); injection this
          rw [he] at hi
          have : p.method = method := (a3 i _ hi).2.1
          rw [this]; exact hm⟩)
    have hcol : collector net lookup evs = (collectorRun (C.k : Int) 5000000000 lookup [] evs).2 := by unfold collector; rw [hk]
    rw [hcol] at hmt
    obtain ⟨i, hi⟩ := List.getElem?_of_mem hmt
    obtain ⟨hil, hit⟩ := List.getElem?_eq_some_iff.1 hi
    have hig : i < (groups C.k (callParcels note.calluuid evs)).length := by rw [← hf.length_eq]; exact hil
    have hrel := (List.forall₂_iff_get.1 hf).2 i hil hig
    simp only [List.get_eq_getElem, hit] at hrel
    obtain ⟨-, -, -, q, hq, hqn⟩ := hrel
    have hg := groups_mem hkpos (List.getElem_mem hig)
    have hqo : q ∈ out := harr.subset (hg.2.subset (List.mem_of_mem_head? hq))
    rw [hqn]
    obtain ⟨j, hj⟩ := List.getElem?_of_mem hqo
    have hqj := (hout j q hj).1
    obtain ⟨p', a1, a2, a3, -⟩ := C41_request_parcels net C hC method note args hlen
    have he : parcels = p' := by have := (a1 _).1 ((hp _).2 rfl); injection this
    rw [he] at hqj
    have hnn : q.unsigned.note = note := (a3 j _ hqj).2.2.1
    have : q.note.receiverMerkleProof = q.unsigned.note.receiverMerkleProof := rfl
    rw [this, hnn]; exact hn2
  exact task_replies S H cod sk net C hC h1 hnet t mm note.calluuid args ⟨i1, i2, i3⟩ hnote handler bytes hh hbl

end Resmix.Rrpc
