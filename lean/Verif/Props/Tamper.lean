import Verif.Props.Sign
import Verif.Props.Verifier
import Verif.Props.Robust
set_option autoImplicit false
/-
What relays can and cannot change: C46 (impersonation), C48, C49, C74.
-/
namespace Resmix.Rrpc
open Resmix.Merkle Resmix.Ecc

/-- The parcel without the certificates put there by `RobustCall`. -/
def Parcel.unsigned (q : Parcel) : Parcel := { q with signature := none, note := { q.note with senderMerkleProof := none } }

/-- Encodings of parcels and notes are longer than two digests (they contain field names, two keys and more). -/
def Codec.Long (cod : Codec) : Prop := (∀ p, 64 < (cod.parcel p).length) ∧ ∀ n, 64 < (cod.note n).length

theorem toyCodec_long : toyCodec.Long := ⟨fun p => by simp [toyCodec], fun n => by simp [toyCodec]⟩

/-- The strings hashed for the signature of a robust call. -/
def robustLeaves (cod : Codec) (ps : List Parcel) : List Bytes := ps.map cod.parcel ++ ps.map fun p => cod.note p.note

/-! ### C48 -/

/-- C48. A client signs the parcels of a robust call (each for its relay). If the server accepts, at position `index`, a parcel `q` that carries
a certificate with the root the client signed (path, leaf index and the parcel itself may all have been changed, and the verifier
may remember any roots), then `q` is the client's parcel for `index`: same method, payload, length, relay index and note. Otherwise
the strings hashed by client and server contain a collision, or a preimage of the zero digest. -/
theorem C48_parcel_unchanged (S : SigScheme) (H : HashFn) (cod : Codec) (hcod : cod.Long) (ps : List Parcel) (hne : ps ≠ [])
    (hps : ∀ (i : Nat) (p : Parcel), ps[i]? = some p → p.relayIndex = (i : Int))
    (rt : Digest) (hrt : root (build H (robustLeaves cod ps)) = .ok rt) (cache : Cache) (tick : Bool) (index : Nat) (q : Parcel) (c : MerkleCertificate)
    (hc : q.signature = some c) (hroot : fitDigest c.root = rt) (hv : (validateParcel S H cod cache tick index q).1 = .ok ()) :
    ps[index]? = some q.unsigned ∨
      ZeroPreimage H (hashedByVerify H c.index (cod.parcel q.unsigned) (c.path.map fitDigest)) ∨
      Collision H (hashedByBuild H (robustLeaves cod ps)) (hashedByVerify H c.index (cod.parcel q.unsigned) (c.path.map fitDigest)) := by
  unfold validateParcel at hv
  split at hv
  · cases hv
  · next hidx =>
    have hidx : q.relayIndex = (index : Int) := by simpa using hidx
    have hauth : authPath H c (cod.parcel q.unsigned) = .ok () := by
      simp only [verifyParcel, hc, verifyCall] at hv
      have he : (cod.parcel { { q with note := { q.note with senderMerkleProof := none } } with signature := none }) = cod.parcel q.unsigned := rfl
      cases ha : authPath H c (cod.parcel q.unsigned) with
      | ok u => rfl
      | error e =>
        have ha' : authPath H c (cod.parcel { { q with note := { q.note with senderMerkleProof := none } } with signature := none }) = .error e := ha
        rw [ha'] at hv
        simp at hv
    unfold authPath at hauth
    rw [hroot] at hauth
    have harr : ∀ x ∈ robustLeaves cod ps, x.length ≠ 64 := by
      intro x hx
      rcases List.mem_append.1 hx with hx | hx
      · obtain ⟨p, -, rfl⟩ := List.mem_map.1 hx; have := hcod.1 p; omega
      · obtain ⟨p, -, rfl⟩ := List.mem_map.1 hx; have := hcod.2 p.note; omega
    rcases C44_no_64_byte_objects_partial H (robustLeaves cod ps) (by simpa [robustLeaves] using hne) rt hrt c.index (cod.parcel q.unsigned)
      (c.path.map fitDigest) harr (by have := hcod.1 q.unsigned; omega) hauth with ⟨h, -⟩ | h
    · left
      unfold robustLeaves at h
      by_cases hlt : c.index < ps.length
      · rw [List.getElem?_append_left (by simpa using hlt), List.getElem?_map] at h
        obtain ⟨p, hp, hpe⟩ := Option.map_eq_some_iff.1 h
        have hpq := cod.parcel_inj _ _ hpe
        subst hpq
        have h1 := hps c.index q.unsigned hp
        have h2 : q.unsigned.relayIndex = (index : Int) := hidx
        rw [h2] at h1
        have : index = c.index := by exact_mod_cast h1
        rw [this]; exact hp
      · rw [List.getElem?_append_right (by simpa using hlt), List.getElem?_map] at h
        obtain ⟨p, hp, hpe⟩ := Option.map_eq_some_iff.1 h
        exact absurd hpe.symm (cod.disjoint _ _)
    · exact Or.inr h

/-- The hypotheses of C48 are met by what `RobustCall` signs. -/
example (S : SigScheme) (H : HashFn) (sk : S.Sk) : ∃ out rt, signRobust S H toyCodec sk [exampleParcel (S.pub sk) 0, exampleParcel (S.pub sk) 1] = .ok out ∧
    root (build H (robustLeaves toyCodec [exampleParcel (S.pub sk) 0, exampleParcel (S.pub sk) 1])) = .ok rt ∧
    ∃ q c, out[1]? = some q ∧ q.signature = some c ∧ fitDigest c.root = rt ∧ (validateParcel S H toyCodec [] false 1 q).1 = .ok () := by
  have hps : ∀ (i : Nat) (p : Parcel), [exampleParcel (S.pub sk) 0, exampleParcel (S.pub sk) 1][i]? = some p →
      p.relayIndex = (i : Int) ∧ p.signature = none ∧ p.note.senderMerkleProof = none ∧ p.note.senderID = S.pub sk := by
    intro i p h
    match i, h with
    | 0, h => simp at h; subst h; exact ⟨rfl, rfl, rfl, rfl⟩
    | 1, h => simp at h; subst h; exact ⟨rfl, rfl, rfl, rfl⟩
    | i + 2, h => simp at h
  obtain ⟨out, rt, h1, h2, h3, h4⟩ := signRobust_ok S H toyCodec sk _ (by simp) hps
  obtain ⟨out', h1', -, h5⟩ := C45_robust_call S H toyCodec sk _ (by simp) hps
  have : out' = out := by rw [h1] at h1'; injection h1' with h; exact h.symm
  subst this
  have hl : 1 < out'.length := by rw [h2]; simp
  have hq : out'[1]? = some out'[1] := List.getElem?_eq_getElem hl
  obtain ⟨-, c, c2, hc, -, g, -⟩ := h4 1 _ hq
  exact ⟨out', rt, h1, h3 (by simp), out'[1], c, hq, hc, g.root, (h5 1 _ hq).2 []⟩

/-! ### C74 -/

/-- C74, without a cleanup tick between the two checks: the parcels an honest client makes for a request and signs are all accepted,
each for its relay, whatever roots the server's verifier remembers. -/
theorem C74_honest_parcel_accepted_partial (S : SigScheme) (H : HashFn) (cod : Codec) (sk : S.Sk) (net : Network) (C : RS) (hC : NewCoordinator net (.ok C))
    (method : Str) (note : ExchangeNote) (hs : note.senderID = S.pub sk) (hn1 : note.senderMerkleProof = none) (args : Bytes)
    (hlen : args.length < 2 ^ 32) (hnet : 2 * net.serverAddresses.length ≤ 2 ^ 64) :
    ∃ parcels out, (∀ res, RequestIntoRobust C false net method note args res ↔ res = .ok parcels) ∧ signRobust S H cod sk parcels = .ok out ∧
      out.length = net.serverAddresses.length ∧
      ∀ (i : Nat) (q : Parcel), out[i]? = some q → parcels[i]? = some q.unsigned ∧ ∀ cache : Cache, (validateParcel S H cod cache false i q).1 = .ok () := by
  set parcels := (List.range net.serverAddresses.length).map (parcelFor C method note args) with hp
  obtain ⟨out, h1, h2, h3⟩ := C45_robust_call S H cod sk parcels (by simpa [hp] using hnet) (by
    intro i p h
    rw [hp, List.getElem?_map] at h
    obtain ⟨j, hj, rfl⟩ := Option.map_eq_some_iff.1 h
    have hji : j = i := by
      obtain ⟨_, h2⟩ := List.getElem?_eq_some_iff.1 hj
      simpa using h2.symm
    subst hji
    exact ⟨rfl, rfl, hn1, hs⟩)
  exact ⟨parcels, out, fun res => requestIntoRobust_iff hC method note args hlen res, h1, by rw [h2, hp]; simp, h3⟩

/-- C74 fails: if the verifier's cleanup runs between the two checks, every parcel of an honest client is refused (the note is checked
against the receiver's key, which only succeeds because the root is remembered from the first check). -/
theorem C74_cleanup_tick_refuted (S : SigScheme) (H : HashFn) (cod : Codec) (sk : S.Sk) (ps : List Parcel) (hlen : 2 * ps.length ≤ 2 ^ 64)
    (hps : ∀ (i : Nat) (p : Parcel), ps[i]? = some p → p.relayIndex = (i : Int) ∧ p.signature = none ∧ p.note.senderMerkleProof = none ∧
      p.note.senderID = S.pub sk ∧ p.note.receiverID.length = 32 ∧ ∀ d, S.valid p.note.receiverID d (S.sign sk d) = false) :
    ∃ out, signRobust S H cod sk ps = .ok out ∧ out.length = ps.length ∧
      ∀ (i : Nat) (q : Parcel), out[i]? = some q → ∀ cache : Cache, (validateParcel S H cod cache true i q).1 = .error badSignature := by
  obtain ⟨out, rt, h1, h2, -, h3⟩ := signRobust_ok S H cod sk ps hlen (fun i p h => by obtain ⟨a, b, c, d, -, -⟩ := hps i p h; exact ⟨a, b, c, d⟩)
  refine ⟨out, h1, h2, fun i q hq cache => ?_⟩
  obtain ⟨hcont, c, c2, hsig, hsn, g, g2⟩ := h3 i q hq
  obtain ⟨p1, p2, p3, p4, p5, p6⟩ := hps i _ hcont
  simp only at p1 p4 p5 p6
  unfold validateParcel
  rw [if_neg (by simp [p1])]
  simp only
  have hv : verifyParcel S H cod cache q.note.senderID { q with note := { q.note with senderMerkleProof := none } } =
      verifyCall S H cache (S.pub sk) (some c) (cod.parcel { q with signature := none, note := { q.note with senderMerkleProof := none } }) := by
    unfold verifyParcel
    simp only [hsig, p4]
  rw [hv]
  obtain ⟨v1, v2⟩ := g.verify cache
  generalize verifyCall S H cache (S.pub sk) (some c)
    (cod.parcel { q with signature := none, note := { q.note with senderMerkleProof := none } }) = r at v1 v2
  obtain ⟨r1, r2⟩ := r
  simp only at v1 v2
  subst v1
  simp only [if_true]
  unfold verifySenderNote verifyCall
  rw [hsn]
  simp only [g2.path, List.not_mem_nil, if_false]
  have : sigResult S q.note.receiverID c2 = .error badSignature := by
    simp [sigResult, owVerify, p5, g2.root, g2.sig, p6]
  rw [this]

/-- The hypotheses of the refutation are met: with the example scheme, any receiver key different from the sender's. -/
example (sk rk : Digest) (h : rk ≠ sk) : ∀ d, toySig.valid rk.1 d (toySig.sign sk d) = false := by
  intro d
  have hne : sk.1 ≠ rk.1 := fun e => h (Subtype.ext e.symm)
  simp only [toySig, decide_eq_false_iff_not]
  intro he
  exact hne (List.append_inj he (by rw [sk.2, rk.2])).1

/-! ### C46: impersonation -/

/-- C46 fails for the server: anyone with some key pair can make a parcel that names any other sender (`victim`, a parcel without
certificates), and after a first parcel that honestly names the attacker has been accepted, the forged one is accepted as well: no
signature of the victim is involved. -/
theorem C46_impersonation_refuted (S : SigScheme) (H : HashFn) (cod : Codec) (attacker : S.Sk) (own victim : Parcel)
    (ho : own.note.senderID = S.pub attacker ∧ own.signature = none ∧ own.note.senderMerkleProof = none ∧ own.relayIndex = 0)
    (hv : victim.signature = none ∧ victim.note.senderMerkleProof = none ∧ victim.relayIndex = 0) (cache : Cache) :
    ∃ own' victim' : Parcel, own'.unsigned = own ∧ victim'.unsigned = victim ∧
      (validateParcel S H cod cache false 0 own').1 = .ok () ∧
      (validateParcel S H cod (validateParcel S H cod cache false 0 own').2 false 0 victim').1 = .ok () := by
  set arr := [Signable.parcel 0, .senderNote 0, .parcel 1, .senderNote 1] with harr
  set h := allocParcels [own, victim] own with hh
  obtain ⟨h', h1, h2, h3, rt, hrt, h4⟩ := merkleSign_ok S H cod attacker arr h (by simp [harr])
  have hrec : ∀ n, (h'.note n).receiverMerkleProof = (h.note n).receiverMerkleProof := fun n =>
    h3 (.receiver n) (fun s hs => by simp [harr] at hs; rcases hs with rfl | rfl | rfl | rfl <;> simp [Signable.slot])
  have obj : ∀ (i : Nat) (p : Parcel), [own, victim].getD i own = p → p.signature = none → p.note.senderMerkleProof = none →
      Signable.parcel i ∈ arr → Signable.senderNote i ∈ arr →
      (h'.parcelAt i).unsigned = p ∧ ∃ c c2, (h'.parcelAt i).signature = some c ∧ (h'.parcelAt i).note.senderMerkleProof = some c2 ∧
        GoodCert S H attacker rt c (cod.parcel p) ∧ GoodCert S H attacker rt c2 (cod.note p.note) := by
    intro i p hp hsig hsn m1 m2
    have hnote : h.note i = p.note := by simp only [hh, allocParcels, hp]
    have hpar : h.parcelAt i = p := by simp only [hh, Heap.parcelAt, allocParcels, hp]
    have hobj := h2.parcel i
    have hr0 : (h.parcel i).noteRef = i := by simp [hh, allocParcels]
    have hr : (h'.parcel i).noteRef = i := by
      have e : (h'.parcel i).noteRef = (h.parcel i).noteRef := (congrArg ParcelObj.noteRef hobj :)
      exact e.trans hr0
    have hqn : (h'.parcelAt i).note = h'.note i := by simp [Heap.parcelAt, hr]
    have hnotes : { h'.note i with senderMerkleProof := none } = p.note := by
      rw [← hnote]; exact strip_sender (h2.note i) (hrec i) (by rw [hnote]; exact hsn)
    refine ⟨?_, ?_⟩
    · unfold Parcel.unsigned
      rw [hqn, hnotes, ← hpar]
      have e1 : (h'.parcel i).messageLength = (h.parcel i).messageLength := (congrArg ParcelObj.messageLength hobj :)
      have e2 : (h'.parcel i).payload = (h.parcel i).payload := (congrArg ParcelObj.payload hobj :)
      have e3 : (h'.parcel i).method = (h.parcel i).method := (congrArg ParcelObj.method hobj :)
      have e4 : (h'.parcel i).relayIndex = (h.parcel i).relayIndex := (congrArg ParcelObj.relayIndex hobj :)
      have e5 : (h.parcel i).signature = none := by rw [← hsig, ← hpar]; rfl
      simp only [Heap.parcelAt, e1, e2, e3, e4, hr0, hnote, e5]
    · obtain ⟨c, hc, g⟩ := h4 (.parcel i) m1
      obtain ⟨c2, hc2, g2⟩ := h4 (.senderNote i) m2
      exact ⟨c, c2, hc, by rw [hqn]; exact hc2, by rw [← hpar]; exact g, by rw [← hnote]; exact g2⟩
  obtain ⟨u1, c, c2, hc, hc2, g, g2⟩ := obj 0 own rfl ho.2.1 ho.2.2.1 (by simp [harr]) (by simp [harr])
  obtain ⟨u2, d, d2, hd, hd2, f, f2⟩ := obj 1 victim rfl hv.1 hv.2.1 (by simp [harr]) (by simp [harr])
  refine ⟨h'.parcelAt 0, h'.parcelAt 1, u1, u2, ?_⟩
  have unfoldV : ∀ (p q : Parcel) (c c2 : MerkleCertificate) (cache : Cache), q.unsigned = p → p.relayIndex = 0 → q.signature = some c → q.note.senderMerkleProof = some c2 →
      GoodCert S H attacker rt c (cod.parcel p) → GoodCert S H attacker rt c2 (cod.note p.note) →
      ((p.note.senderID = S.pub attacker ∨ rt ∈ cache) → (validateParcel S H cod cache false 0 q).1 = .ok () ∧ rt ∈ (validateParcel S H cod cache false 0 q).2) := by
    intro p q c c2 cache hu hr hc hc2 g g2 hor
    have hrq : q.relayIndex = 0 := by rw [← hr, ← hu]; rfl
    have hsq : q.note.senderID = p.note.senderID := by rw [← hu]; rfl
    have hnq : { q.note with senderMerkleProof := none } = p.note := by rw [← hu]; rfl
    have hvp : verifyParcel S H cod cache q.note.senderID { q with note := { q.note with senderMerkleProof := none } } =
        verifyCall S H cache p.note.senderID (some c) (cod.parcel p) := by
      unfold verifyParcel
      rw [hsq, ← hu]
      simp only [hc]
      rfl
    have hres : (verifyCall S H cache p.note.senderID (some c) (cod.parcel p)).1 = .ok () ∧ rt ∈ (verifyCall S H cache p.note.senderID (some c) (cod.parcel p)).2 := by
      rcases hor with h | h
      · rw [h]; exact g.verify cache
      · rw [g.verify_cached cache h]; exact ⟨rfl, h⟩
    unfold validateParcel
    rw [if_neg (by simp [hrq])]
    simp only
    rw [hvp]
    revert hres
    generalize verifyCall S H cache p.note.senderID (some c) (cod.parcel p) = r
    obtain ⟨r1, r2⟩ := r
    rintro ⟨h1, h2⟩
    simp only at h1 h2
    subst h1
    simp only [Bool.false_eq_true, if_false]
    unfold verifySenderNote
    rw [hc2, hnq, g2.verify_cached r2 h2]
    exact ⟨rfl, h2⟩
  obtain ⟨r1, r2⟩ := unfoldV own _ c c2 cache u1 ho.2.2.2 hc hc2 g g2 (Or.inl ho.1)
  exact ⟨r1, (unfoldV victim _ d d2 _ u2 hv.2.2 hd hd2 f f2 (Or.inr r2)).1⟩

/-! ### C49 -/

/-- A relay's answer with reply part `p` under the note `n`; the client's verifier remembers the roots `cache`. -/
def replyAnswer (S : SigScheme) (H : HashFn) (cod : Codec) (cache : Cache) (server : Bytes) (n : ExchangeNote) (p : RrpcResponse) : Answer :=
  ({ relayStreamError := none, uuid := n.calluuid, response := some { response := some p, rpcError := none, publicKey := server, note := some n } },
   (verifyReceiverNote S H cod cache server n).1)

/-- C49 fails. A server replies `x :: rest`, splits the reply and signs the responses as usual. Relay 0 replaces its part by another
one; together with the untouched responses of the other relays the client accepts it and returns `y :: rest`, for any byte `y`. -/
theorem C49_relay_alters_reply_refuted (S : SigScheme) (H : HashFn) (cod : Codec) (sk : S.Sk) (net : Network) (C : RS) (hC : NewCoordinator net (.ok C))
    (h1 : 1 ≤ net.tau) (h2 : net.tau ≤ net.serverAddresses.length) (hnet : net.serverAddresses.length ≤ 2 ^ 64)
    (note : ExchangeNote) (hr : note.receiverMerkleProof = none) (x y : UInt8) (rest : Bytes) (hlen : rest.length + 1 < 2 ^ 32) (cache : Cache) :
    ∃ parts notes forged, ReplyParts C false net (x :: rest) (.ok parts) ∧ signResponses S H cod sk true net.serverAddresses.length note = .ok notes ∧
      ∀ res, RobustReply C false net (((notes.zip (forged :: parts.drop 1)).take net.minimalRelayedParcels.toNat).map fun np =>
          (replyAnswer S H cod cache (S.pub sk) np.1 np.2).ev) res ↔ res = some (.ok (y :: rest)) := by
  obtain ⟨hk, hm, hn⟩ := coordinator_code hC
  obtain ⟨notes, hs, hnl, hnv⟩ := C45_responses S H cod sk true net.serverAddresses.length hnet note hr
  set n := net.serverAddresses.length with hndef
  have hkpos := C.kpos
  have hkn : C.k ≤ n := by omega
  refine ⟨(List.range n).map (partFor C (x :: rest)), notes, partFor C (y :: rest) 0, (replyParts_iff hC _ _).2 rfl, hs, fun res => ?_⟩
  have hmin : net.minimalRelayedParcels.toNat = C.k := by rw [← hk]; simp
  rw [hmin]
  -- the parts that arrive
  have hparts : (partFor C (y :: rest) 0 :: ((List.range n).map (partFor C (x :: rest))).drop 1).take C.k = (List.range C.k).map (partFor C (y :: rest)) := by
    apply List.ext_getElem?
    intro i
    by_cases hi : i < C.k
    · rw [List.getElem?_take_of_lt hi, List.getElem?_map, List.getElem?_range hi]
      cases i with
      | zero => rfl
      | succ i =>
        rw [List.getElem?_cons_succ, List.getElem?_drop, List.getElem?_map, List.getElem?_range (by omega)]
        simp only [Option.map_some]
        rw [Nat.add_comm 1 i, partFor_congr C x y rest (i + 1) (by omega) hi]
    · rw [List.getElem?_eq_none (by simp; omega), List.getElem?_eq_none (by simp; omega)]
  have hzip : (notes.zip (partFor C (y :: rest) 0 :: ((List.range n).map (partFor C (x :: rest))).drop 1)).take C.k =
      (notes.take C.k).zip ((List.range C.k).map (partFor C (y :: rest))) := by
    rw [List.zip_eq_zipWith, List.take_zipWith, hparts, ← List.zip_eq_zipWith]
  rw [hzip]
  set zs := (notes.take C.k).zip ((List.range C.k).map (partFor C (y :: rest))) with hzs
  have hzl : zs.length = C.k := by rw [hzs, List.length_zip]; simp; omega
  have hacc : ∀ a ∈ zs.map (fun np => replyAnswer S H cod cache (S.pub sk) np.1 np.2), a.accepted = true := by
    intro a ha
    obtain ⟨np, hnp, rfl⟩ := List.mem_map.1 ha
    rw [accepted_iff]
    have hmem : np.1 ∈ notes := List.mem_of_mem_take (List.of_mem_zip (show (np.1, np.2) ∈ _ from hnp)).1
    simp only [replyAnswer, validateRrpcResponse, (hnv np.1 hmem).2 cache, liftGo]
  have hrun := accepted_run net h1 h2 _ hacc (by rw [List.length_map, hzl]; exact hk)
  rw [List.map_map] at hrun
  unfold RobustReply
  rw [show (zs.map fun np => (replyAnswer S H cod cache (S.pub sk) np.1 np.2).ev) = zs.map (Answer.ev ∘ fun np => replyAnswer S H cod cache (S.pub sk) np.1 np.2) from rfl, hrun]
  have hresp : (((zs.map fun np => replyAnswer S H cod cache (S.pub sk) np.1 np.2).map fun a => a.1.response).map fun r => r.bind (·.response)) =
      ((List.range C.k).map (partFor C (y :: rest))).map some := by
    rw [List.map_map, List.map_map]
    have : (((fun r => Option.bind r (·.response)) ∘ fun a : Answer => a.1.response) ∘ fun np : ExchangeNote × RrpcResponse => replyAnswer S H cod cache (S.pub sk) np.1 np.2) = some ∘ Prod.snd := by
      funext np; rfl
    rw [this, ← List.map_map, hzs, List.map_snd_zip (by simp; omega)]
  simp only [hresp]
  obtain ⟨parts', g1, g2, g3, g4⟩ := C41_reply_parts net C hC (y :: rest) (by simpa using hlen)
  have hp' : parts' = (List.range n).map (partFor C (y :: rest)) := by
    have := (g1 _).1 ((replyParts_iff hC (y :: rest) _).2 rfl)
    injection this with this; exact this.symm
  have hsub : ((List.range C.k).map (partFor C (y :: rest))).Subperm parts' := by
    rw [hp']
    apply List.Sublist.subperm
    apply List.Sublist.map
    exact List.range_sublist.2 hkn
  have := g4 _ hsub (by rw [List.length_map, List.length_range]; exact hk.symm.le)
  constructor
  · rintro ⟨out, ho, rfl⟩
    rw [(this out).1 ho]; rfl
  · rintro rfl
    exact ⟨_, (this _).2 rfl, rfl⟩

/-- What holds of C49: the note of an accepted response. If the server signed its responses for one call (all of them carry `note`) and
a response is accepted whose certificate names the root the server signed, then its note is `note`, so it is a response to this call
of this client; else there is a collision or a preimage of the zero digest. -/
theorem C49_note_unchanged_partial (S : SigScheme) (H : HashFn) (cod : Codec) (hcod : cod.Long) (n : Nat) (hn : 0 < n) (note : ExchangeNote)
    (rt : Digest) (hrt : root (build H (List.replicate n (cod.note note))) = .ok rt) (cache : Cache) (pk : Bytes) (m : ExchangeNote) (c : MerkleCertificate)
    (hc : m.receiverMerkleProof = some c) (hroot : fitDigest c.root = rt) (hv : (verifyReceiverNote S H cod cache pk m).1 = .ok ()) :
    { m with receiverMerkleProof := none } = note ∨
      ZeroPreimage H (hashedByVerify H c.index (cod.note { m with receiverMerkleProof := none }) (c.path.map fitDigest)) ∨
      Collision H (hashedByBuild H (List.replicate n (cod.note note)))
        (hashedByVerify H c.index (cod.note { m with receiverMerkleProof := none }) (c.path.map fitDigest)) := by
  unfold verifyReceiverNote verifyCall at hv
  rw [hc] at hv
  simp only at hv
  have hauth : authPath H c (cod.note { m with receiverMerkleProof := none }) = .ok () := by
    cases ha : authPath H c (cod.note { m with receiverMerkleProof := none }) with
    | ok u => rfl
    | error e => rw [ha] at hv; simp at hv
  unfold authPath at hauth
  rw [hroot] at hauth
  rcases C44_no_64_byte_objects_partial H (List.replicate n (cod.note note)) (by simp; omega) rt hrt c.index _
    (c.path.map fitDigest) (by intro x hx; obtain ⟨-, rfl⟩ := List.mem_replicate.1 hx; have := hcod.2 note; omega)
    (by have := hcod.2 { m with receiverMerkleProof := none }; omega) hauth with ⟨h, -⟩ | h
  · left
    have := List.mem_of_getElem? h
    obtain ⟨-, h⟩ := List.mem_replicate.1 this
    exact cod.note_inj _ _ h
  · exact Or.inr h

end Resmix.Rrpc
