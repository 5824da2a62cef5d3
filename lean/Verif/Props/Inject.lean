import Verif.Spec.Inject
import Verif.Props.Replay
import Verif.Proofs.EccShort
set_option autoImplicit false
/-
C141: parcels made up by a relay.
-/
namespace Resmix.Rrpc
open Resmix.Ecc Resmix.Merkle
variable {μ : Type}

/-- Reconstruction looks at positions, payloads and the first length only. -/
theorem reconstructParcels_map (C : RS) (st : Bool) (ps : List Parcel) (f : Parcel → Parcel)
    (hf : ∀ p, (f p).relayIndex = p.relayIndex ∧ (f p).payload = p.payload ∧ (f p).messageLength = p.messageLength) (res : Go Bytes) :
    ReconstructParcels C st (ps.map f) res ↔ ReconstructParcels C st ps res := by
  cases ps with
  | nil => exact Iff.rfl
  | cons p ps =>
    have h : ((p :: ps).map f).map (fun p => (p.relayIndex, p.payload)) = (p :: ps).map (fun p => (p.relayIndex, p.payload)) := by
      rw [List.map_map]
      exact List.map_congr_left fun q _ => by simp [(hf q).1, (hf q).2.1]
    unfold ReconstructParcels
    rw [h, List.map_cons]
    dsimp only
    rw [(hf p).2.2]

/-- What reconstruction makes of the client's own parcels. -/
theorem out_facts {S : SigScheme} {H : HashFn} {cod : Codec} {ck : S.Sk} {net : Network} {C : RS} (hC : NewCoordinator net (.ok C)) (hnet : 2 * net.serverAddresses.length ≤ 2 ^ 64)
    {method : Str} {note : ExchangeNote} (hs : note.senderID = S.pub ck) (hn1 : note.senderMerkleProof = none) {args : Bytes} (hlen : args.length < 2 ^ 32)
    {out parcels : List Parcel} (hp : RequestIntoRobust C false net method note args (.ok parcels)) (hsign : signRobust S H cod ck parcels = .ok out) :
    out.map Parcel.unsigned = (List.range net.serverAddresses.length).map (parcelFor C method note args) := by
  obtain ⟨parcels', out', hp', hsign', hol, hout⟩ := C74_honest_parcel_accepted_partial S H cod ck net C hC method note hs hn1 args hlen hnet
  have hpp : parcels = parcels' := by have := (hp' _).1 hp; injection this
  subst hpp
  have hoo : out = out' := by rw [hsign] at hsign'; injection hsign'
  subst hoo
  have hpf : parcels = (List.range net.serverAddresses.length).map (parcelFor C method note args) := by
    have := (requestIntoRobust_iff hC method note args hlen _).1 hp
    injection this
  rw [← hpf]
  have hpl : parcels.length = net.serverAddresses.length := by rw [hpf]; simp
  apply List.ext_getElem?
  intro i
  rw [List.getElem?_map]
  cases hq : out[i]? with
  | none =>
    have := List.getElem?_eq_none_iff.1 hq
    rw [Option.map_none, List.getElem?_eq_none (by omega)]
  | some q => rw [Option.map_some, (hout i q hq).1]

/-- What becomes of a forged parcel that is first. -/
theorem forged_task (S : SigScheme) (H : HashFn) (cod : Codec) (ck ek : S.Sk) (net : Network) (C : RS) (hC : NewCoordinator net (.ok C))
    (hmaj : (net.serverAddresses.length : Int) < 2 * net.minimalRelayedParcels) (hnet : 2 * net.serverAddresses.length ≤ 2 ^ 64)
    (lookup : Str → Go μ) (method other : Str) (mm mo : μ) (hm : lookup method = .ok mm) (ho : lookup other = .ok mo) (note : ExchangeNote) (hs : note.senderID = S.pub ck)
    (hn1 : note.senderMerkleProof = none) (hn2 : note.receiverMerkleProof = none) (args : Bytes) (hlen : args.length < 2 ^ 32)
    (r : Nat) (hr : r < net.serverAddresses.length) (len : Parcel → Bytes) :
    ∃ (out : List Parcel) (evil : Parcel), Forged S H cod ck ek net C method note args r other len out evil ∧
      (∀ cache : Cache, (validateParcel S H cod cache false r evil).1 = .ok ()) ∧
      (∀ (i : Nat) (q : Parcel), out[i]? = some q → ∀ cache : Cache, (validateParcel S H cod cache false i q).1 = .ok ()) ∧
      ∀ order : List Parcel, order.Perm (out.eraseIdx r) →
        ∃ t own, runsOf note.calluuid (collector net lookup ((evil :: order).map (CEv.parcel 0))) = [t] ∧ t.method = mo ∧ t.savedNote.calluuid = note.calluuid ∧
          t.savedNote.receiverMerkleProof = none ∧ t.parcels = (evil :: order).take C.k ∧ own ∈ out ∧
          evil.relayIndex = own.relayIndex ∧ evil.payload = own.payload ∧ evil.messageLength = len own ∧ (own :: order).Perm out := by
  obtain ⟨parcels, out, hp, hsign, hol, hout⟩ := C74_honest_parcel_accepted_partial S H cod ck net C hC method note hs hn1 args hlen hnet
  obtain ⟨hk, hm', hkm⟩ := coordinator_code hC
  obtain ⟨parcels', hp1, hp2, hp3, hp4⟩ := C41_request_parcels net C hC method note args hlen
  have hpp : parcels = parcels' := by have := (hp1 _).1 ((hp _).2 rfl); injection this
  subst hpp
  have hkpos := C.kpos
  have hun : out.map Parcel.unsigned = parcels := by
    apply List.ext_getElem?
    intro i
    rw [List.getElem?_map]
    cases hq : out[i]? with
    | none =>
      have := List.getElem?_eq_none_iff.1 hq
      rw [Option.map_none, List.getElem?_eq_none (by omega)]
    | some q => rw [Option.map_some, (hout i q hq).1]
  have huq : ∀ q ∈ out, q.note.calluuid = note.calluuid ∧ q.method = method ∧ q.note.receiverMerkleProof = none ∧ q.unsigned.note = note ∧ q.unsigned.method = method := by
    intro q hq
    obtain ⟨i, hi⟩ := List.getElem?_of_mem hq
    have := hp3 i q.unsigned (hout i q hi).1
    exact ⟨(congrArg ExchangeNote.calluuid this.2.2.1 :), this.2.1, ((congrArg ExchangeNote.receiverMerkleProof this.2.2.1 :)).trans hn2, this.2.2.1, this.2.1⟩
  have hrl : r < out.length := by omega
  set own := out[r] with hown
  have hor : out[r]? = some own := List.getElem?_eq_getElem hrl
  have hownm : own ∈ out := List.mem_of_getElem? hor
  have hidx : own.relayIndex = (r : Int) := (hp3 r _ (hout r own hor).1).1
  obtain ⟨forged, f1, f2, f3⟩ := C45_robust_call S H cod ek (recastAll own net.serverAddresses.length other (len own) (S.pub ek)) (by simpa [recastAll] using hnet) (by
    intro i p h
    rw [recastAll, List.getElem?_map] at h
    obtain ⟨j, hj, rfl⟩ := Option.map_eq_some_iff.1 h
    have hji : j = i := by
      obtain ⟨_, h2⟩ := List.getElem?_eq_some_iff.1 hj
      simpa using h2.symm
    subst hji
    exact ⟨rfl, rfl, rfl, rfl⟩)
  have hfl : r < forged.length := by rw [f2]; simpa [recastAll] using hr
  obtain ⟨evil, hev⟩ : ∃ evil, forged[r]? = some evil := ⟨_, List.getElem?_eq_getElem hfl⟩
  obtain ⟨e1, e2⟩ := f3 r evil hev
  have hevil : recast own r other (len own) (S.pub ek) = evil.unsigned := by
    rw [recastAll, List.getElem?_map, List.getElem?_range hr] at e1
    injection e1
  have ev1 : evil.note.calluuid = note.calluuid := by
    have : (recast own r other (len own) (S.pub ek)).note.calluuid = evil.note.calluuid := by rw [hevil]; rfl
    rw [← this]; exact (huq own hownm).1
  have ev2 : evil.method = other := by
    have : (recast own r other (len own) (S.pub ek)).method = evil.method := by rw [hevil]; rfl
    rw [← this]; rfl
  have ev3 : evil.note.receiverMerkleProof = none := by
    have : (recast own r other (len own) (S.pub ek)).note.receiverMerkleProof = evil.note.receiverMerkleProof := by rw [hevil]; rfl
    rw [← this]; exact (huq own hownm).2.2.1
  have c1 : own.relayIndex = evil.relayIndex := by
    have : (recast own r other (len own) (S.pub ek)).relayIndex = evil.relayIndex := by rw [hevil]; rfl
    rw [hidx, ← this]; rfl
  have c2 : own.payload = evil.payload := by
    have : (recast own r other (len own) (S.pub ek)).payload = evil.payload := by rw [hevil]; rfl
    exact this
  have c3 : evil.messageLength = len own := by
    have : (recast own r other (len own) (S.pub ek)).messageLength = evil.messageLength := by rw [hevil]; rfl
    exact this.symm
  refine ⟨out, evil, ⟨⟨parcels, (hp _).2 rfl, hsign⟩, own, forged, hor, f1, hev⟩, e2, fun i q h => (hout i q h).2, ?_⟩
  intro order hord
  have hperm : (own :: order).Perm out := by
    refine (hord.cons own).trans ?_
    rw [hown]
    exact List.getElem_cons_eraseIdx_perm hrl
  have hlen' : order.length + 1 = net.serverAddresses.length := by
    rw [← hol, ← hperm.length_eq]; rfl
  have huo : ∀ q ∈ order, q ∈ out := fun q hq => hperm.subset (List.mem_cons_of_mem _ hq)
  have hcp : callParcels note.calluuid ((evil :: order).map (CEv.parcel 0)) = evil :: order := callParcels_map _ _ _ (by
    intro q hq
    rcases List.mem_cons.1 hq with rfl | hq
    · exact ev1
    · exact (huq q (huo q hq)).1)
  obtain ⟨-, -, -, -, hinv⟩ := collector_inv C.k hkpos 5000000000 lookup note.calluuid ((evil :: order).map (CEv.parcel 0))
    (timely_of_no_tick _ _ _ _ (fun now h => by obtain ⟨_, _, h⟩ := List.mem_map.1 h; cases h)) (by
      rw [hcp]; intro q hq
      rcases List.mem_cons.1 hq with rfl | hq
      · exact ⟨mo, by rw [ev2]; exact ho⟩
      · exact ⟨mm, by rw [(huq q (huo q hq)).2.1]; exact hm⟩)
  rw [hcp] at hinv
  have hgr : groups C.k (evil :: order) = [(evil :: order).take C.k] := by
    unfold groups
    have : (evil :: order).length / C.k = 1 := by
      rw [List.length_cons, hlen']
      exact Nat.div_eq_of_lt_le (by omega) (by omega)
    rw [this]
    simp only [show List.range 1 = [0] from rfl, List.map_cons, List.map_nil, Nat.zero_mul, List.drop_zero]
  rw [hgr] at hinv
  have hcol : collector net lookup ((evil :: order).map (CEv.parcel 0)) = (collectorRun (C.k : Int) 5000000000 lookup [] ((evil :: order).map (CEv.parcel 0))).2 := by
    unfold collector; rw [hk]
  rw [hcol]
  obtain ⟨t, ts, ⟨a1, a2, ⟨q, hq, hqm⟩, q', hq', hqn⟩, hts, htt⟩ := List.forall₂_cons_right_iff.1 hinv
  have hnil := List.forall₂_nil_right_iff.1 hts
  subst hnil
  obtain ⟨j, hj⟩ := Nat.exists_eq_succ_of_ne_zero (Nat.pos_iff_ne_zero.1 hkpos)
  have hhead : ((evil :: order).take C.k).head? = some evil := by rw [hj]; rfl
  rw [hhead] at hq hq'
  injection hq with hq; subst hq
  injection hq' with hq'; subst hq'
  refine ⟨t, own, htt, ?_, a2, by rw [hqn]; exact ev3, a1, hownm, c1.symm, c2.symm, c3, hperm⟩
  rw [ev2, ho] at hqm
  injection hqm with hqm
  exact hqm.symm

/-- C141 fails: one relay, all others being honest, makes a robust call run another method and return what that returned. An honest client makes and signs the parcels of a call of
`method` and gives relay `r` its parcel `own`. The relay writes another method and its own key into copies of `own`, signs them with its own key and hands the one with its index
to the server, before the others; all other relays hand over the client's parcels, in any order. The server accepts all of this, whatever it verified before. It runs one
handler for the call: that of the other method, on the client's arguments. Its responses are accepted by the client, and his call returns them: with the answers of any
`MinimalRelayedParcels` relays it returns what the other method returned. -/
theorem C141_other_method_refuted (S : SigScheme) (H : Merkle.HashFn) (cod : Codec) (ck ek sk : S.Sk) (net : Network) (C : RS) (hC : NewCoordinator net (.ok C))
    (h1 : 1 ≤ net.tau) (hmaj : (net.serverAddresses.length : Int) < 2 * net.minimalRelayedParcels) (hnet : 2 * net.serverAddresses.length ≤ 2 ^ 64)
    (lookup : Str → Go μ) (method other : Str) (mm mo : μ) (hm : lookup method = .ok mm) (ho : lookup other = .ok mo) (note : ExchangeNote) (hs : note.senderID = S.pub ck)
    (hn1 : note.senderMerkleProof = none) (hn2 : note.receiverMerkleProof = none) (args : Bytes) (hlen : args.length < 2 ^ 32)
    (r : Nat) (hr : r < net.serverAddresses.length) :
    ∃ (out : List Parcel) (evil : Parcel), Forged S H cod ck ek net C method note args r other (·.messageLength) out evil ∧
      (∀ cache : Cache, (validateParcel S H cod cache false r evil).1 = .ok ()) ∧
      (∀ (i : Nat) (q : Parcel), out[i]? = some q → ∀ cache : Cache, (validateParcel S H cod cache false i q).1 = .ok ()) ∧
      ∀ order : List Parcel, order.Perm (out.eraseIdx r) →
        ∃ t, runsOf note.calluuid (collector net lookup ((evil :: order).map (CEv.parcel 0))) = [t] ∧ Invokes C t mo note.calluuid args ∧
          ∀ (handler : μ → Str → Bytes → Except SvcErr Bytes) (bytes : Bytes), handler mo note.calluuid args = .ok bytes → bytes.length < 2 ^ 32 →
            ∃ resps, (∀ res, TaskOutput S H cod sk C false net handler [] t res ↔ res = .ok resps) ∧ resps.length = net.serverAddresses.length ∧
              (∀ c ∈ resps, ∀ cache, (passOn S H cod cache (S.pub sk) note.calluuid c).accepted = true) ∧
              ∀ (as : List Answer) (more : List RobustEv), ((as.filter (·.accepted)).map fun a => a.1.response).Subperm (resps.map some) →
                net.minimalRelayedParcels ≤ (as.filter (·.accepted)).length → (∀ a ∈ as, ¬ a.crashes) →
                (as.countP (fun a => !a.accepted) : Int) ≤ net.maxErrors →
                ∀ r, RobustReply C false net (as.map Answer.ev ++ more) r ↔ r = some (.ok bytes) := by
  obtain ⟨out, evil, hF, v1, v2, hall⟩ := forged_task S H cod ck ek net C hC hmaj hnet lookup method other mm mo hm ho note hs hn1 hn2 args hlen r hr (·.messageLength)
  refine ⟨out, evil, hF, v1, v2, ?_⟩
  intro order hord
  obtain ⟨t, own, t1, t2, t3, t4, t5, hown, c1, c2, c3, hperm⟩ := hall order hord
  obtain ⟨⟨parcels, hp, hsign⟩, -⟩ := hF
  obtain ⟨parcels', hp1, hp2, hp3, hp4⟩ := C41_request_parcels net C hC method note args hlen
  have hpp : parcels = parcels' := by have := (hp1 _).1 hp; injection this
  subst hpp
  have hun : out.map Parcel.unsigned = parcels := by
    rw [out_facts hC hnet hs hn1 hlen hp hsign]
    have := (requestIntoRobust_iff hC method note args hlen _).1 hp
    injection this with this; exact this.symm
  let f : Parcel → Parcel := fun p => { p with method := method, note := note, signature := none }
  have hfo : ∀ q ∈ out, f q = q.unsigned := by
    intro q hq
    obtain ⟨i, hi⟩ := List.getElem?_of_mem (hun ▸ List.mem_map_of_mem hq : q.unsigned ∈ parcels)
    obtain ⟨-, b2, b1, -⟩ := hp3 i _ hi
    have b3 : q.method = method := b2
    show ({ q with method := method, note := note, signature := none } : Parcel) = q.unsigned
    rw [← b3, ← b1]; rfl
  have hfe : f evil = f own := by
    simp only [f, c1, c2, c3]
  have hkl : (evil :: order).length = net.serverAddresses.length := by
    have h1 := hperm.length_eq
    have h2 := congrArg List.length hun
    rw [List.length_map, hp2] at h2
    simp only [List.length_cons] at h1 ⊢
    omega
  obtain ⟨hk, hm', hkm⟩ := coordinator_code hC
  have hI : Invokes C t mo note.calluuid args := by
    refine ⟨t2, t3, fun res => ?_⟩
    rw [← reconstructParcels_map C false t.parcels f (fun p => ⟨rfl, rfl, rfl⟩), t5]
    have hmap : (evil :: order).map f = (own :: order).map Parcel.unsigned := by
      rw [List.map_cons, List.map_cons, hfe, hfo own hown, List.map_congr_left (fun q hq => hfo q (hperm.subset (List.mem_cons_of_mem _ hq)))]
    refine hp4 _ ?_ (by rw [List.length_map, List.length_take, hkl]; omega) res
    rw [List.map_take, hmap, ← List.map_take, ← hun]
    exact ((List.take_sublist _ _).map _).subperm.trans (hperm.map _).subperm
  refine ⟨t, t1, hI, ?_⟩
  intro handler bytes hh hbl
  exact task_replies S H cod sk net C hC h1 hnet t mo note.calluuid args hI t4 handler bytes hh hbl

/-- C141 fails also for the arguments: by the same means, with the length field 0 instead of another method, the relay makes the server run the client's method on no arguments
at all, and the client's call returns what that returned. -/
theorem C141_no_arguments_refuted (S : SigScheme) (H : Merkle.HashFn) (cod : Codec) (ck ek sk : S.Sk) (net : Network) (C : RS) (hC : NewCoordinator net (.ok C))
    (h1 : 1 ≤ net.tau) (hmaj : (net.serverAddresses.length : Int) < 2 * net.minimalRelayedParcels) (hnet : 2 * net.serverAddresses.length ≤ 2 ^ 64)
    (lookup : Str → Go μ) (method : Str) (mm : μ) (hm : lookup method = .ok mm) (note : ExchangeNote) (hs : note.senderID = S.pub ck)
    (hn1 : note.senderMerkleProof = none) (hn2 : note.receiverMerkleProof = none) (args : Bytes) (hlen : args.length < 2 ^ 32)
    (r : Nat) (hr : r < net.serverAddresses.length) :
    ∃ (out : List Parcel) (evil : Parcel), Forged S H cod ck ek net C method note args r method (fun _ => le32 0) out evil ∧
      (∀ cache : Cache, (validateParcel S H cod cache false r evil).1 = .ok ()) ∧
      (∀ (i : Nat) (q : Parcel), out[i]? = some q → ∀ cache : Cache, (validateParcel S H cod cache false i q).1 = .ok ()) ∧
      ∀ order : List Parcel, order.Perm (out.eraseIdx r) →
        ∃ t, runsOf note.calluuid (collector net lookup ((evil :: order).map (CEv.parcel 0))) = [t] ∧ Invokes C t mm note.calluuid [] ∧
          ∀ (handler : μ → Str → Bytes → Except SvcErr Bytes) (bytes : Bytes), handler mm note.calluuid [] = .ok bytes → bytes.length < 2 ^ 32 →
            ∃ resps, (∀ res, TaskOutput S H cod sk C false net handler [] t res ↔ res = .ok resps) ∧ resps.length = net.serverAddresses.length ∧
              (∀ c ∈ resps, ∀ cache, (passOn S H cod cache (S.pub sk) note.calluuid c).accepted = true) ∧
              ∀ (as : List Answer) (more : List RobustEv), ((as.filter (·.accepted)).map fun a => a.1.response).Subperm (resps.map some) →
                net.minimalRelayedParcels ≤ (as.filter (·.accepted)).length → (∀ a ∈ as, ¬ a.crashes) →
                (as.countP (fun a => !a.accepted) : Int) ≤ net.maxErrors →
                ∀ r, RobustReply C false net (as.map Answer.ev ++ more) r ↔ r = some (.ok bytes) := by
  obtain ⟨out, evil, hF, v1, v2, hall⟩ := forged_task S H cod ck ek net C hC hmaj hnet lookup method method mm mm hm hm note hs hn1 hn2 args hlen r hr (fun _ => le32 0)
  refine ⟨out, evil, hF, v1, v2, ?_⟩
  intro order hord
  obtain ⟨t, own, t1, t2, t3, t4, t5, hown, c1, c2, c3, hperm⟩ := hall order hord
  obtain ⟨⟨parcels, hp, hsign⟩, -⟩ := hF
  have hun := out_facts hC hnet hs hn1 hlen hp hsign
  obtain ⟨hk, hm', hkm⟩ := coordinator_code hC
  have hkpos := C.kpos
  have hI : Invokes C t mm note.calluuid [] := by
    refine ⟨t2, t3, fun res => ?_⟩
    have hpay : (evil :: order).map (fun p => (p.relayIndex, p.payload)) = ((own :: order).map Parcel.unsigned).map (fun p => (p.relayIndex, p.payload)) := by
      rw [List.map_map, List.map_cons, List.map_cons, c1, c2]; rfl
    have hsub : (((own :: order).take C.k).map Parcel.unsigned).Subperm ((List.range net.serverAddresses.length).map (parcelFor C method note args)) := by
      rw [← hun]
      exact ((List.take_sublist _ _).map _).subperm.trans (hperm.map _).subperm
    obtain ⟨Q, hnd, hQ, hQe⟩ := subperm_indices hsub
    have hQl : Q.length = C.k := by
      have h1 := congrArg List.length hQe
      have h2 := congrArg List.length hun
      have h3 := hperm.length_eq
      simp only [List.length_map, List.length_take, List.length_range] at h1 h2
      omega
    obtain ⟨hl, hrows⟩ := coded_rows C args
    have hQ' : ∀ r ∈ Q, r < C.k + C.m := fun r hr => by rw [hkm]; exact hQ r hr
    have hfill := fill_eq C (coded C args) hl Q hQ'
    have her := cols_erasure C args Q.reverse (List.nodup_reverse.2 hnd) (fun r hr => hQ' r (List.mem_reverse.1 hr)) (by simp [hQl])
    have hmap : ((evil :: order).take C.k).map (fun p => (p.relayIndex, p.payload)) = Q.map fun (r : Nat) => ((r : Int), col (coded C args) r) := by
      rw [List.map_take, hpay, ← List.map_take, ← List.map_take, hQe, List.map_map]; rfl
    obtain ⟨j, hj⟩ := Nat.exists_eq_succ_of_ne_zero (Nat.pos_iff_ne_zero.1 hkpos)
    have htk : (evil :: order).take C.k = evil :: order.take j := by rw [hj]; rfl
    have hrec : ReconstructParcels C false t.parcels res ↔
        ∃ o, AuthReconstruct C false (cols (coded C args) (C.k + C.m) Q.reverse) 0 o ∧ res = match (generalizing := false) o with
          | .ok d => .ok d
          | .error .panic => .error .panic
          | .error _ => .error (.err .invalidArgument "server reconstruction failure") := by
      rw [t5]
      unfold ReconstructParcels
      rw [hmap, hfill, htk]
      simp only [c3, le32_uint32 0 (by decide)]
      exact Iff.rfl
    have hz : ∀ o, AuthReconstruct C false (cols (coded C args) (C.k + C.m) Q.reverse) 0 o ↔ o = .ok [] := by
      intro o
      constructor
      · rintro (⟨h, -⟩ | ⟨ord, ho, rfl⟩)
        · cases h
        · exact authReconstructIn_zero C args _ her ord ho
      · rintro rfl
        exact Or.inr ⟨_, List.Perm.refl _, (authReconstructIn_zero C args _ her _ (List.Perm.refl _)).symm⟩
    rw [hrec]
    constructor
    · rintro ⟨o, ho, rfl⟩
      rw [(hz o).1 ho]
    · rintro rfl
      exact ⟨_, (hz _).2 rfl, rfl⟩
  refine ⟨t, t1, hI, ?_⟩
  intro handler bytes hh hbl
  exact task_replies S H cod sk net C hC h1 hnet t mm note.calluuid [] hI t4 handler bytes hh hbl

/-- C141, partial: relays that only use the client's own parcels. All parcels with the call's id that a server accepts carry the root the client signed for this call (nobody else
signs a parcel with this id, and signatures cannot be forged). Then whatever the relays do, altering parcels, repeating, delaying, dropping or diverting them, and whatever else
reaches the server: every handler the server runs for the call is that of the client's method, on the client's arguments; or an accepted parcel exhibits a collision of the
hash function (or a preimage of the zero digest). What is missing: parcels with this id signed by others (above). -/
theorem C141_own_parcels_partial (S : SigScheme) (H : Merkle.HashFn) (cod : Codec) (hcod : cod.Long) (net : Network) (C : RS) (hC : NewCoordinator net (.ok C))
    (lookup : Str → Go μ) (method : Str) (mm : μ) (hm : lookup method = .ok mm) (note : ExchangeNote) (args : Bytes) (hlen : args.length < 2 ^ 32) (parcels : List Parcel)
    (hp : RequestIntoRobust C false net method note args (.ok parcels)) (rt : Merkle.Digest) (hrt : Merkle.root (Merkle.build H (robustLeaves cod parcels)) = .ok rt)
    (evs : List CEv) (hacc : ∀ p ∈ callParcels note.calluuid evs, ∃ (cache : Cache) (tick : Bool) (i : Nat), (validateParcel S H cod cache tick i p).1 = .ok ())
    (hsig : ∀ p ∈ callParcels note.calluuid evs, ∃ c, p.signature = some c ∧ fitDigest c.root = rt) :
    (∀ t ∈ runsOf note.calluuid (collector net lookup evs), HandlerRuns C t → Invokes C t mm note.calluuid args) ∨
      ∃ p ∈ callParcels note.calluuid evs, ∃ c, p.signature = some c ∧
        (ZeroPreimage H (hashedByVerify H c.index (cod.parcel p.unsigned) (c.path.map fitDigest)) ∨
          Collision H (hashedByBuild H (robustLeaves cod parcels)) (hashedByVerify H c.index (cod.parcel p.unsigned) (c.path.map fitDigest))) := by
  by_cases hbad : ∃ p ∈ callParcels note.calluuid evs, ∃ c, p.signature = some c ∧
        (ZeroPreimage H (hashedByVerify H c.index (cod.parcel p.unsigned) (c.path.map fitDigest)) ∨
          Collision H (hashedByBuild H (robustLeaves cod parcels)) (hashedByVerify H c.index (cod.parcel p.unsigned) (c.path.map fitDigest)))
  · exact .inr hbad
  left
  obtain ⟨hk, hkpos⟩ := minimal_pos hC
  have hkeq : ((net.minimalRelayedParcels.toNat : Nat) : Int) = net.minimalRelayedParcels := by omega
  obtain ⟨parcels', hp1, hp2, hp3, hp4⟩ := C41_request_parcels net C hC method note args hlen
  have hpp : parcels = parcels' := by have := (hp1 _).1 hp; injection this
  subst hpp
  obtain ⟨-, -, hkm⟩ := coordinator_code hC
  have hne : parcels ≠ [] := by rw [← List.length_pos_iff, hp2]; omega
  have hin : ∀ p ∈ callParcels note.calluuid evs, p.unsigned ∈ parcels := by
    intro p hpm
    obtain ⟨cache, tick, i, hv⟩ := hacc p hpm
    obtain ⟨c, hc, hroot⟩ := hsig p hpm
    rcases C48_parcel_unchanged S H cod hcod parcels hne (fun i p h => (hp3 i p h).1) rt hrt cache tick i p c hc hroot hv with h | h
    · exact List.mem_of_getElem? h
    · exact (hbad ⟨p, hpm, c, hc, h⟩).elim
  intro t ht hrun
  obtain ⟨-, -, -, h3, -⟩ := collector_any net.minimalRelayedParcels.toNat (by omega) 5000000000 lookup note.calluuid evs
  rw [hkeq] at h3
  obtain ⟨⟨a1, ⟨q, hq, hqm⟩, q', hq', hn⟩, a4⟩ := h3 t ht
  rw [hq] at hq'
  injection hq' with hq'
  subst hq'
  have hsubset : ∀ p ∈ t.parcels, p.unsigned ∈ parcels := fun p hpm => hin p (a1.subset hpm)
  -- positions are distinct, so no parcel occurs twice
  have hnd : (t.parcels.map (·.relayIndex)).Nodup := by
    obtain ⟨st, d, hd⟩ := hrun
    have hcard := reconstruct_distinct hd
    have hle : (t.parcels.map (·.relayIndex)).length ≤ (t.parcels.map (·.relayIndex)).toFinset.card := by
      rw [List.length_map, a4]; omega
    rw [List.card_toFinset] at hle
    have := (List.dedup_sublist (t.parcels.map (·.relayIndex))).eq_of_length_le hle
    rw [← this]; exact List.nodup_dedup _
  have hnd' : (t.parcels.map Parcel.unsigned).Nodup := by
    have : (t.parcels.map Parcel.unsigned).map (·.relayIndex) = t.parcels.map (·.relayIndex) := by rw [List.map_map]; rfl
    exact List.Nodup.of_map _ (this ▸ hnd)
  have hsub : (t.parcels.map Parcel.unsigned).Subperm parcels := by
    refine List.subperm_of_subset hnd' ?_
    intro p hpm
    obtain ⟨p0, hp0, rfl⟩ := List.mem_map.1 hpm
    exact hsubset p0 hp0
  obtain ⟨i, hi⟩ := List.getElem?_of_mem (hsubset q (List.mem_of_mem_head? hq))
  have hqi := hp3 i _ hi
  refine ⟨?_, ?_, fun res => ?_⟩
  · have : q.method = method := hqi.2.1
    rw [this, hm] at hqm
    injection hqm with hqm
    exact hqm.symm
  · rw [hn]; exact (congrArg ExchangeNote.calluuid hqi.2.2.1 :)
  · rw [← reconstructParcels_unsigned]
    exact hp4 _ hsub (by rw [List.length_map, a4]; omega) res

/-- The hypotheses of the refutation about the network are met by all networks that CreateCoordinator sets up for 2 to 256 servers. -/
example (peers : List ServerData) (hvalid : ∀ s ∈ peers, ∃ a k, Registers s a k) (h2 : 2 ≤ peers.length) (h256 : peers.length ≤ 256) :
    (∃ C, NewCoordinator (configNetwork peers) (.ok C)) ∧ 1 ≤ (configNetwork peers).tau ∧
      ((configNetwork peers).serverAddresses.length : Int) < 2 * (configNetwork peers).minimalRelayedParcels ∧
      2 * (configNetwork peers).serverAddresses.length ≤ 2 ^ 64 := by
  obtain ⟨h1, h2', h3, -⟩ := C51_configured peers hvalid
  obtain ⟨-, -, hC⟩ := h3 (by omega)
  have hmin : (configNetwork peers).minimalRelayedParcels = (configNetwork peers).serverAddresses.length - (configNetwork peers).maxErrors := rfl
  have hmax : (configNetwork peers).maxErrors = (configNetwork peers).tau - 1 := rfl
  refine ⟨hC (by omega), ?_, ?_, ?_⟩ <;> omega

/-- The hypotheses of `C141_own_parcels_partial` are met when every relay hands over its parcel twice. -/
example (S : SigScheme) (H : HashFn) (sk : S.Sk) (net : Network) (C : RS) (hC : NewCoordinator net (.ok C)) (hnet : 2 * net.serverAddresses.length ≤ 2 ^ 64)
    (method : Str) (note : ExchangeNote) (hs : note.senderID = S.pub sk) (hn1 : note.senderMerkleProof = none) (args : Bytes) (hlen : args.length < 2 ^ 32) :
    toyCodec.Long ∧ ∃ parcels rt out, RequestIntoRobust C false net method note args (.ok parcels) ∧ root (build H (robustLeaves toyCodec parcels)) = .ok rt ∧
      callParcels note.calluuid ((out ++ out).map (CEv.parcel 0)) = out ++ out ∧ out.length = net.serverAddresses.length ∧
      (∀ p ∈ out ++ out, ∃ (cache : Cache) (tick : Bool) (i : Nat), (validateParcel S H toyCodec cache tick i p).1 = .ok ()) ∧
      ∀ p ∈ out ++ out, ∃ c, p.signature = some c ∧ fitDigest c.root = rt := by
  refine ⟨toyCodec_long, ?_⟩
  obtain ⟨parcels, out, hp, hsign, hol, hout⟩ := C74_honest_parcel_accepted_partial S H toyCodec sk net C hC method note hs hn1 args hlen hnet
  obtain ⟨parcels', hp1, hp2, hp3, hp4⟩ := C41_request_parcels net C hC method note args hlen
  have hpp : parcels = parcels' := by have := (hp1 _).1 ((hp _).2 rfl); injection this
  subst hpp
  obtain ⟨hk, -, hkm⟩ := coordinator_code hC
  have hkpos := C.kpos
  have hsg : ∀ (i : Nat) (p : Parcel), parcels[i]? = some p → p.signature = none := by
    intro i p h
    have hl : i < out.length := by rw [hol, ← hp2]; exact (List.getElem?_eq_some_iff.1 h).1
    have := (hout i _ (List.getElem?_eq_getElem hl)).1
    rw [h] at this
    injection this with this
    rw [this]; rfl
  obtain ⟨out', rt, g1, g2, g3, g4⟩ := signRobust_ok S H toyCodec sk parcels (by rw [hp2]; exact hnet) (fun i p h => by
    obtain ⟨a, b, c, -⟩ := hp3 i p h
    exact ⟨a, hsg i p h, by rw [c]; exact hn1, by rw [c]; exact hs⟩)
  have hoo : out' = out := by rw [hsign] at g1; injection g1 with g1; exact g1.symm
  subst hoo
  refine ⟨parcels, rt, out', (hp _).2 rfl, g3 (by rw [← List.length_pos_iff, hp2]; omega), callParcels_map _ _ _ ?_, hol, ?_, ?_⟩
  · intro q hq
    obtain ⟨i, hi⟩ := List.getElem?_of_mem ((List.mem_append.1 hq).elim id id)
    exact (congrArg ExchangeNote.calluuid (hp3 i q.unsigned (hout i q hi).1).2.2.1 :)
  · intro q hq
    obtain ⟨i, hi⟩ := List.getElem?_of_mem ((List.mem_append.1 hq).elim id id)
    exact ⟨[], false, i, (hout i q hi).2 []⟩
  · intro q hq
    obtain ⟨i, hi⟩ := List.getElem?_of_mem ((List.mem_append.1 hq).elim id id)
    obtain ⟨-, c, c2, hc, -, g, -⟩ := g4 i q hi
    exact ⟨c, hc, g.root⟩

end Resmix.Rrpc
