import Mathlib.Data.Int.Interval
import Verif.Spec.Replay
import Verif.Proofs.Replay
import Verif.Props.CollectorOnce
import Verif.Props.Network
set_option autoImplicit false
/-
C133: relays that hand over parcels again, or to other servers.
-/
namespace Resmix.Rrpc
open Resmix.Ecc
variable {μ : Type}

/-- C133, what always holds: a handler is run only for parcels of at least `MinimalRelayedParcels` different relays. So fewer relays, whatever parcels they make up or hand
over, and however often, never make a server run anything. -/
theorem C133_quorum (net : Network) (C : RS) (hC : NewCoordinator net (.ok C)) (lookup : Str → Go μ) (u : Str) (evs : List CEv) (t : CTask μ)
    (ht : t ∈ runsOf u (collector net lookup evs)) (hr : HandlerRuns C t) :
    ∃ Q : Finset Int, (Q.card : Int) = net.minimalRelayedParcels ∧ ∀ i ∈ Q, 0 ≤ i ∧ i < net.serverAddresses.length ∧ ∃ p ∈ t.parcels, p.relayIndex = i ∧ p ∈ callParcels u evs := by
  obtain ⟨st, d, hd⟩ := hr
  obtain ⟨hk, hm, hkm⟩ := coordinator_code hC
  have h1 := reconstruct_distinct hd
  have h2 := reconstruct_range hd
  obtain ⟨-, -, -, h3, -⟩ := collector_any C.k C.kpos 5000000000 lookup u evs
  rw [hk] at h3
  obtain ⟨Q, hQ, hcard⟩ := Finset.exists_subset_card_eq h1
  refine ⟨Q, by rw [hcard, hk], fun i hi => ?_⟩
  obtain ⟨p, hp, hpi⟩ := List.mem_map.1 (List.mem_toFinset.1 (hQ hi))
  have := h2 p hp
  rw [hkm, hpi] at this
  exact ⟨this.1, this.2, p, hp, hpi, (h3 t ht).1.sub.subset hp⟩

/-- C133, what holds of repeated parcels: let the relays in `D` hand over whatever they like as often as they like, and the others at most one parcel with the call's id each. If
the network has more than `2 * MaxErrors + |D|` servers, the handler is run at most once for the call. What is missing: see below, and the handler of other servers. -/
theorem C133_at_most_once_partial (net : Network) (C : RS) (hC : NewCoordinator net (.ok C)) (lookup : Str → Go μ) (u : Str) (evs : List CEv) (D : Finset Int)
    (hD : 2 * net.maxErrors + D.card < net.serverAddresses.length) (hon : OnceExcept D u evs) (i j : Nat) (ti tj : CTask μ)
    (hi : (runsOf u (collector net lookup evs))[i]? = some ti) (hj : (runsOf u (collector net lookup evs))[j]? = some tj)
    (hri : HandlerRuns C ti) (hrj : HandlerRuns C tj) : i = j := by
  obtain ⟨hk, hm, hkm⟩ := coordinator_code hC
  have key : ∀ (i j : Nat) (ti tj : CTask μ), i < j → (runsOf u (collector net lookup evs))[i]? = some ti → (runsOf u (collector net lookup evs))[j]? = some tj →
      HandlerRuns C ti → HandlerRuns C tj → False := by
    intro i j ti tj hij hi hj ⟨_, _, di⟩ ⟨_, _, dj⟩
    have hflat := collector_flat C.k C.kpos 5000000000 lookup u evs
    rw [hk] at hflat
    have hsub : (ti.parcels ++ tj.parcels).Sublist (callParcels u evs) :=
      (sublist_flatten_two (L := (runsOf u (collector net lookup evs)).map (·.parcels)) hij (by rw [List.getElem?_map, hi]; rfl) (by rw [List.getElem?_map, hj]; rfl)).trans
        ((List.sublist_append_left _ _).trans hflat)
    have hnd := ((hsub.map (fun p : Parcel => p.relayIndex)).filter (· ∉ D)).nodup hon
    rw [List.map_append, List.filter_append] at hnd
    set A := (ti.parcels.map (·.relayIndex)).toFinset with hA
    set B := (tj.parcels.map (·.relayIndex)).toFinset with hB
    set I := Finset.Ico (0 : Int) (net.serverAddresses.length : Int) with hI
    have a1 : C.k ≤ A.card := reconstruct_distinct di
    have b1 : C.k ≤ B.card := reconstruct_distinct dj
    have sub : ∀ (l : List Parcel), (∀ p ∈ l, 0 ≤ p.relayIndex ∧ p.relayIndex < ((C.k + C.m : Nat) : Int)) → (l.map (·.relayIndex)).toFinset ⊆ I := by
      intro l hl x hx
      obtain ⟨p, hp, rfl⟩ := List.mem_map.1 (List.mem_toFinset.1 hx)
      have := hl p hp
      rw [hkm] at this
      exact Finset.mem_Ico.2 this
    have a2 : A ⊆ I := sub _ (reconstruct_range di)
    have b2 : B ⊆ I := sub _ (reconstruct_range dj)
    have hdisj : Disjoint (A \ D) (B \ D) := by
      rw [Finset.disjoint_left]
      intro x hx hy
      obtain ⟨x1, x2⟩ := Finset.mem_sdiff.1 hx
      obtain ⟨y1, -⟩ := Finset.mem_sdiff.1 hy
      exact (List.disjoint_of_nodup_append hnd) (List.mem_filter.2 ⟨List.mem_toFinset.1 x1, by simpa using x2⟩) (List.mem_filter.2 ⟨List.mem_toFinset.1 y1, by simpa using x2⟩)
    have hun : (A \ D).card + (B \ D).card ≤ (I \ D).card := by
      rw [← Finset.card_union_of_disjoint hdisj]
      refine Finset.card_le_card (Finset.union_subset ?_ ?_)
      · exact Finset.sdiff_subset_sdiff a2 (Finset.Subset.refl _)
      · exact Finset.sdiff_subset_sdiff b2 (Finset.Subset.refl _)
    have hIc : (I \ D).card + (I ∩ D).card = net.serverAddresses.length := by
      rw [Finset.card_sdiff_add_card_inter, hI]; simp
    have hAc : A.card ≤ (A \ D).card + (I ∩ D).card := by
      rw [← Finset.card_sdiff_add_card_inter A D]
      exact Nat.add_le_add_left (Finset.card_le_card (Finset.inter_subset_inter a2 (Finset.Subset.refl _))) _
    have hBc : B.card ≤ (B \ D).card + (I ∩ D).card := by
      rw [← Finset.card_sdiff_add_card_inter B D]
      exact Nat.add_le_add_left (Finset.card_le_card (Finset.inter_subset_inter b2 (Finset.Subset.refl _))) _
    have hDc : (I ∩ D).card ≤ D.card := Finset.card_le_card Finset.inter_subset_right
    omega
  rcases Nat.lt_trichotomy i j with h | h | h
  · exact (key i j ti tj h hi hj hri hrj).elim
  · exact h
  · exact (key j i tj ti h hj hi hrj hri).elim

/-- C133 fails: at most `MaxErrors` relays (so many as a call is to survive) hand over their parcels a second time; every other relay hands over its parcel once. If the network
has no more than `2 * MaxErrors + f` servers (the networks set up by CreateCoordinator for an even number of servers, from 6 on, have that for `f = 2`), the server accepts
all parcels and runs the handler twice on the client's bytes. -/
theorem C133_replay_refuted (S : SigScheme) (H : Merkle.HashFn) (cod : Codec) (ck : S.Sk) (net : Network) (C : RS) (hC : NewCoordinator net (.ok C))
    (hnet : 2 * net.serverAddresses.length ≤ 2 ^ 64) (f : Nat) (hf : (f : Int) ≤ net.maxErrors) (hbig : (net.serverAddresses.length : Int) ≤ 2 * net.maxErrors + f)
    (hmin : (f : Int) ≤ net.minimalRelayedParcels)
    (lookup : Str → Go μ) (method : Str) (mm : μ) (hm : lookup method = .ok mm) (note : ExchangeNote) (hs : note.senderID = S.pub ck)
    (hn1 : note.senderMerkleProof = none) (args : Bytes) (hlen : args.length < 2 ^ 32) :
    ∃ (parcels out order : List Parcel) (D : Finset Int), RequestIntoRobust C false net method note args (.ok parcels) ∧ signRobust S H cod ck parcels = .ok out ∧
      (∀ (i : Nat) (q : Parcel), out[i]? = some q → ∀ cache : Cache, (validateParcel S H cod cache false i q).1 = .ok ()) ∧
      (∀ q ∈ order, q ∈ out) ∧ D.card = f ∧ OnceExcept D note.calluuid (order.map (CEv.parcel 0)) ∧ (∀ i : Int, (order.map (·.relayIndex)).count i ≤ 2) ∧
      ∃ t1 t2, runsOf note.calluuid (collector net lookup (order.map (CEv.parcel 0))) = [t1, t2] ∧
        Invokes C t1 mm note.calluuid args ∧ Invokes C t2 mm note.calluuid args := by
  obtain ⟨parcels, out, hp, hsign, hol, hout⟩ := C74_honest_parcel_accepted_partial S H cod ck net C hC method note hs hn1 args hlen hnet
  obtain ⟨hk, hm', hkm⟩ := coordinator_code hC
  obtain ⟨parcels', hp1, hp2, hp3, hp4⟩ := C41_request_parcels net C hC method note args hlen
  have hpp : parcels = parcels' := by have := (hp1 _).1 ((hp _).2 rfl); injection this
  subst hpp
  have hkpos := C.kpos
  have hun : out.map Parcel.unsigned = parcels := by
    apply List.ext_getElem?
    intro i
    rw [List.getElem?_map]
    cases hq : out[i]? with
    | none =>
      have := List.getElem?_eq_none_iff.1 hq
      rw [Option.map_none, List.getElem?_eq_none (by omega)]
    | some q => rw [Option.map_some, (hout i q hq).1]
  have hidx : out.map (·.relayIndex) = (List.range net.serverAddresses.length).map (fun i : Nat => (i : Int)) := by
    apply List.ext_getElem?
    intro i
    rw [List.getElem?_map, List.getElem?_map]
    cases hq : out[i]? with
    | none =>
      have := List.getElem?_eq_none_iff.1 hq
      rw [Option.map_none, List.getElem?_eq_none (by simp; omega), Option.map_none]
    | some q =>
      have hi := (List.getElem?_eq_some_iff.1 hq).1
      rw [Option.map_some, List.getElem?_range (by omega), Option.map_some]
      exact congrArg some (hp3 i q.unsigned (hout i q hq).1).1
  have hnd : (out.map (·.relayIndex)).Nodup := by
    rw [hidx]; exact List.nodup_range.map (fun a b h => by simpa using h)
  have huq : ∀ q ∈ out, q.note.calluuid = note.calluuid ∧ q.method = method := by
    intro q hq
    obtain ⟨i, hi⟩ := List.getElem?_of_mem hq
    have := hp3 i q.unsigned (hout i q hi).1
    exact ⟨(congrArg ExchangeNote.calluuid this.2.2.1 :), this.2.1⟩
  set g2 := out.take f ++ (out.drop C.k).take (C.k - f) with hg2
  have hs1 : (out.take C.k).Sublist out := List.take_sublist _ _
  have hs2 : g2.Sublist out := by
    rw [hg2]
    have h1 : (out.take f).Sublist (out.take C.k) := by
      have : out.take f = (out.take C.k).take f := by rw [List.take_take]; congr 1; omega
      rw [this]; exact List.take_sublist _ _
    have := h1.append (List.take_sublist (C.k - f) (out.drop C.k))
    rwa [List.take_append_drop] at this
  have hl1 : (out.take C.k).length = C.k := by rw [List.length_take]; omega
  have hl2 : g2.length = C.k := by rw [hg2, List.length_append, List.length_take, List.length_take, List.length_drop]; omega
  have hmem : ∀ q ∈ out.take C.k ++ g2, q ∈ out := by
    intro q hq
    rcases List.mem_append.1 hq with h | h
    · exact hs1.subset h
    · exact hs2.subset h
  have hcp : callParcels note.calluuid ((out.take C.k ++ g2).map (CEv.parcel 0)) = out.take C.k ++ g2 := callParcels_map _ _ _ (fun q hq => (huq q (hmem q hq)).1)
  set D : Finset Int := (Finset.range f).image (fun i : Nat => (i : Int)) with hDdef
  have hD1 : ∀ q ∈ out.take f, q.relayIndex ∈ D := by
    intro q hq
    obtain ⟨i, hi⟩ := List.getElem?_of_mem hq
    obtain ⟨hi1, -⟩ := List.getElem?_eq_some_iff.1 hi
    rw [List.length_take] at hi1
    rw [List.getElem?_take_of_lt (by omega)] at hi
    have : q.relayIndex = (i : Int) := (hp3 i q.unsigned (hout i q hi).1).1
    rw [this]
    exact Finset.mem_image.2 ⟨i, Finset.mem_range.2 (by omega), rfl⟩
  refine ⟨parcels, out, out.take C.k ++ g2, D, (hp _).2 rfl, hsign, fun i q h => (hout i q h).2, hmem, ?_, ?_, ?_, ?_⟩
  · rw [hDdef, Finset.card_image_of_injective _ (fun a b h => by simpa using h), Finset.card_range]
  · unfold OnceExcept
    rw [hcp, hg2]
    have hnil : ((out.take f).map (·.relayIndex)).filter (· ∉ D) = [] := by
      rw [List.filter_eq_nil_iff]
      intro x hx
      obtain ⟨q, hq, rfl⟩ := List.mem_map.1 hx
      simpa using hD1 q hq
    rw [List.map_append, List.map_append, List.filter_append, List.filter_append, hnil, List.nil_append, ← List.filter_append, ← List.map_append]
    have hsub : (out.take C.k ++ (out.drop C.k).take (C.k - f)).Sublist out := by
      have := (List.Sublist.refl (out.take C.k)).append (List.take_sublist (C.k - f) (out.drop C.k))
      rwa [List.take_append_drop] at this
    exact ((hsub.map (fun p : Parcel => p.relayIndex)).nodup hnd).filter _
  · intro i
    rw [List.map_append, List.count_append]
    have c1 := List.nodup_iff_count_le_one.1 ((hs1.map (fun p : Parcel => p.relayIndex)).nodup hnd) i
    have c2 := List.nodup_iff_count_le_one.1 ((hs2.map (fun p : Parcel => p.relayIndex)).nodup hnd) i
    omega
  · obtain ⟨-, -, -, -, hinv⟩ := collector_inv C.k hkpos 5000000000 lookup note.calluuid ((out.take C.k ++ g2).map (CEv.parcel 0))
      (timely_of_no_tick _ _ _ _ (fun now h => by obtain ⟨_, _, h⟩ := List.mem_map.1 h; cases h)) (by
        rw [hcp]; intro q hq; exact ⟨mm, by rw [(huq q (hmem q hq)).2]; exact hm⟩)
    rw [hcp] at hinv
    have hgr : groups C.k (out.take C.k ++ g2) = [out.take C.k, g2] := by
      unfold groups
      rw [List.length_append, hl1, hl2, show (C.k + C.k) / C.k = 2 by rw [← Nat.two_mul]; exact Nat.mul_div_cancel 2 hkpos]
      have e1 : (out.take C.k ++ g2).take C.k = out.take C.k := by rw [List.take_append_of_le_length (by omega), List.take_of_length_le (by omega)]
      have e2 : (out.take C.k ++ g2).drop C.k = g2 := by rw [List.drop_append_of_le_length (by omega), List.drop_of_length_le (by omega), List.nil_append]
      simp only [show List.range 2 = [0, 1] from rfl, List.map_cons, List.map_nil, Nat.zero_mul, List.drop_zero, Nat.one_mul, e1, e2]
      rw [List.take_of_length_le (by omega : g2.length ≤ C.k)]
    rw [hgr] at hinv
    have hcol : collector net lookup ((out.take C.k ++ g2).map (CEv.parcel 0)) = (collectorRun (C.k : Int) 5000000000 lookup [] ((out.take C.k ++ g2).map (CEv.parcel 0))).2 := by
      unfold collector; rw [hk]
    rw [hcol]
    obtain ⟨t1, ts, ht1, hts, htt⟩ := List.forall₂_cons_right_iff.1 hinv
    obtain ⟨t2, ts', ht2, hts', htt'⟩ := List.forall₂_cons_right_iff.1 hts
    have hnil := List.forall₂_nil_right_iff.1 hts'
    subst hnil
    subst htt'
    have fin : ∀ (t : CTask μ) (g : List Parcel), g.Sublist out → g.length = C.k →
        (t.parcels = g ∧ t.savedNote.calluuid = note.calluuid ∧ FirstMethod lookup g t.method ∧ ∃ q, g.head? = some q ∧ t.savedNote = q.note) → Invokes C t mm note.calluuid args := by
      rintro t g hg hgl ⟨a1, a2, ⟨q, hq, hqm⟩, -⟩
      refine ⟨?_, a2, fun res => ?_⟩
      · rw [(huq q (hg.subset (List.mem_of_mem_head? hq))).2, hm] at hqm
        injection hqm with hqm
        exact hqm.symm
      · rw [← reconstructParcels_unsigned, a1]
        refine hp4 _ ?_ (by rw [List.length_map, hgl]; omega) res
        rw [← hun]
        exact (hg.map _).subperm
    exact ⟨t1, t2, htt, fin t1 _ hs1 hl1 ht1, fin t2 _ hs2 hl2 ht2⟩

/-- C133, another server: if all parcels with the call's id that a server gets come from fewer than `MinimalRelayedParcels` relays (say, the dishonest ones), it runs no handler for
the call, whatever these relays send and however often. -/
theorem C133_few_relays_run_nothing (net : Network) (C : RS) (hC : NewCoordinator net (.ok C)) (lookup : Str → Go μ) (u : Str) (evs : List CEv) (D : Finset Int)
    (hD : (D.card : Int) < net.minimalRelayedParcels) (hfrom : ∀ p ∈ callParcels u evs, p.relayIndex ∈ D) :
    ∀ t ∈ runsOf u (collector net lookup evs), ¬ HandlerRuns C t := by
  intro t ht hr
  obtain ⟨Q, hQ, hall⟩ := C133_quorum net C hC lookup u evs t ht hr
  have : Q ⊆ D := fun i hi => by
    obtain ⟨-, -, p, -, hpi, hpe⟩ := hall i hi
    rw [← hpi]; exact hfrom p hpe
  have := Finset.card_le_card this
  omega

/-- C133 fails for `MinimalRelayedParcels` relays: the parcels of a call are not bound to the server they are for. An honest client makes and signs the parcels of a call for
the server whose key is in the note. Every server, with whatever it has verified before and whatever services, accepts all of them, and if it offers the method and gets
the parcels of the first `MinimalRelayedParcels` relays, it runs its handler on the client's bytes. -/
theorem C133_diverted_refuted (S : SigScheme) (H : Merkle.HashFn) (cod : Codec) (ck : S.Sk) (net : Network) (C : RS) (hC : NewCoordinator net (.ok C))
    (hnet : 2 * net.serverAddresses.length ≤ 2 ^ 64) (method : Str) (note : ExchangeNote) (hs : note.senderID = S.pub ck)
    (hn1 : note.senderMerkleProof = none) (args : Bytes) (hlen : args.length < 2 ^ 32) :
    ∃ (parcels out : List Parcel), RequestIntoRobust C false net method note args (.ok parcels) ∧ signRobust S H cod ck parcels = .ok out ∧
      (∀ q ∈ out, q.note.receiverID = note.receiverID) ∧
      ∀ (cache : Cache) (lookup : Str → Go μ) (mm : μ), lookup method = .ok mm →
        (∀ (i : Nat) (q : Parcel), out[i]? = some q → (validateParcel S H cod cache false i q).1 = .ok ()) ∧
        ∃ t, runsOf note.calluuid (collector net lookup ((out.take net.minimalRelayedParcels.toNat).map (CEv.parcel 0))) = [t] ∧ Invokes C t mm note.calluuid args := by
  obtain ⟨parcels, out, hp, hsign, hol, hout⟩ := C74_honest_parcel_accepted_partial S H cod ck net C hC method note hs hn1 args hlen hnet
  obtain ⟨hk, hm', hkm⟩ := coordinator_code hC
  obtain ⟨parcels', hp1, hp2, hp3, hp4⟩ := C41_request_parcels net C hC method note args hlen
  have hpp : parcels = parcels' := by have := (hp1 _).1 ((hp _).2 rfl); injection this
  subst hpp
  have hkpos := C.kpos
  have hun : out.map Parcel.unsigned = parcels := by
    apply List.ext_getElem?
    intro i
    rw [List.getElem?_map]
    cases hq : out[i]? with
    | none =>
      have := List.getElem?_eq_none_iff.1 hq
      rw [Option.map_none, List.getElem?_eq_none (by omega)]
    | some q => rw [Option.map_some, (hout i q hq).1]
  have huq : ∀ q ∈ out, q.note.calluuid = note.calluuid ∧ q.method = method ∧ q.note.receiverID = note.receiverID := by
    intro q hq
    obtain ⟨i, hi⟩ := List.getElem?_of_mem hq
    have := hp3 i q.unsigned (hout i q hi).1
    exact ⟨(congrArg ExchangeNote.calluuid this.2.2.1 :), this.2.1, (congrArg ExchangeNote.receiverID this.2.2.1 :)⟩
  refine ⟨parcels, out, (hp _).2 rfl, hsign, fun q hq => (huq q hq).2.2, fun cache lookup mm hm => ⟨fun i q h => (hout i q h).2 cache, ?_⟩⟩
  have hs1 : (out.take C.k).Sublist out := List.take_sublist _ _
  have hl1 : (out.take C.k).length = C.k := by rw [List.length_take]; omega
  have hkt : net.minimalRelayedParcels.toNat = C.k := by omega
  rw [hkt]
  have hcp : callParcels note.calluuid ((out.take C.k).map (CEv.parcel 0)) = out.take C.k := callParcels_map _ _ _ (fun q hq => (huq q (hs1.subset hq)).1)
  obtain ⟨-, -, -, -, hinv⟩ := collector_inv C.k hkpos 5000000000 lookup note.calluuid ((out.take C.k).map (CEv.parcel 0))
    (timely_of_no_tick _ _ _ _ (fun now h => by obtain ⟨_, _, h⟩ := List.mem_map.1 h; cases h)) (by
      rw [hcp]; intro q hq; exact ⟨mm, by rw [(huq q (hs1.subset hq)).2.1]; exact hm⟩)
  rw [hcp] at hinv
  have hgr : groups C.k (out.take C.k) = [out.take C.k] := by
    unfold groups
    rw [hl1, Nat.div_self hkpos]
    simp only [show List.range 1 = [0] from rfl, List.map_cons, List.map_nil, Nat.zero_mul, List.drop_zero]
    rw [List.take_of_length_le (by omega)]
  rw [hgr] at hinv
  have hcol : collector net lookup ((out.take C.k).map (CEv.parcel 0)) = (collectorRun (C.k : Int) 5000000000 lookup [] ((out.take C.k).map (CEv.parcel 0))).2 := by
    unfold collector; rw [hk]
  rw [hcol]
  obtain ⟨t, ts, ⟨a1, a2, ⟨q, hq, hqm⟩, -⟩, hts, htt⟩ := List.forall₂_cons_right_iff.1 hinv
  have hnil := List.forall₂_nil_right_iff.1 hts
  subst hnil
  refine ⟨t, htt, ?_, a2, fun res => ?_⟩
  · rw [(huq q (hs1.subset (List.mem_of_mem_head? hq))).2.1, hm] at hqm
    injection hqm with hqm
    exact hqm.symm
  · rw [← reconstructParcels_unsigned, a1]
    refine hp4 _ ?_ (by rw [List.length_map, hl1]; omega) res
    rw [← hun]
    exact (hs1.map _).subperm

/-- The hypotheses of the refutation are met with `f = 2` by every network that CreateCoordinator sets up for an even number of servers from 6 to 256. -/
example (peers : List ServerData) (hvalid : ∀ s ∈ peers, ∃ a k, Registers s a k) (n : Nat) (hn : peers.length = 2 * n) (h3 : 3 ≤ n) (h256 : 2 * n ≤ 256) :
    (∃ C, NewCoordinator (configNetwork peers) (.ok C)) ∧ ((2 : Nat) : Int) ≤ (configNetwork peers).maxErrors ∧
      ((configNetwork peers).serverAddresses.length : Int) ≤ 2 * (configNetwork peers).maxErrors + (2 : Nat) ∧ ((2 : Nat) : Int) ≤ (configNetwork peers).minimalRelayedParcels ∧
      2 * (configNetwork peers).serverAddresses.length ≤ 2 ^ 64 := by
  obtain ⟨h1, h2, h3', -⟩ := C51_configured peers hvalid
  obtain ⟨-, -, hC⟩ := h3' (by omega)
  have hmin : (configNetwork peers).minimalRelayedParcels = (configNetwork peers).serverAddresses.length - (configNetwork peers).maxErrors := rfl
  refine ⟨hC (by omega), ?_, ?_, ?_, ?_⟩ <;> omega

/-- The hypotheses of `C133_at_most_once_partial` are met: in every such network one repeating relay is harmless (here: it hands over the same parcel three times). -/
example (peers : List ServerData) (hvalid : ∀ s ∈ peers, ∃ a k, Registers s a k) (h3 : 2 ≤ peers.length) (p : Parcel) :
    2 * (configNetwork peers).maxErrors + ({p.relayIndex} : Finset Int).card < (configNetwork peers).serverAddresses.length ∧
      OnceExcept {p.relayIndex} p.note.calluuid [.parcel 0 p, .parcel 1 p, .parcel 2 p] := by
  obtain ⟨h1, h2, -⟩ := C51_configured peers hvalid
  exact ⟨by rw [Finset.card_singleton]; omega, by simp [OnceExcept, callParcels]⟩

end Resmix.Rrpc
