import Verif.Proofs.Sign
set_option autoImplicit false
/-
C45: everything merkleSign signs verifies.
-/
namespace Resmix.Rrpc
open Resmix.Merkle

theorem strip_receiver {a b : ExchangeNote} (h : stripNote a = stripNote b) (hs : a.senderMerkleProof = b.senderMerkleProof)
    (hb : b.receiverMerkleProof = none) : { a with receiverMerkleProof := none } = b := by
  cases a; cases b; simp_all [stripNote]

theorem strip_sender {a b : ExchangeNote} (h : stripNote a = stripNote b) (hs : a.receiverMerkleProof = b.receiverMerkleProof)
    (hb : b.senderMerkleProof = none) : { a with senderMerkleProof := none } = b := by
  cases a; cases b; simp_all [stripNote]

/-- C45, responses and receiver notes. Any list (of at most 2^64 entries) of call responses and receiver notes, any of which may share
their note objects, whose notes carry no receiver certificate yet, is signed successfully; every note keeps its contents, and the
verifier, whatever roots it remembers, accepts every entry under the public key of the signer. -/
theorem C45_receiver_side (S : SigScheme) (H : HashFn) (cod : Codec) (sk : S.Sk) (arr : List Signable) (h : Heap) (hlen : arr.length ≤ 2 ^ 64)
    (hkind : ∀ s ∈ arr, ∃ n, (s = .response n ∨ s = .receiverNote n) ∧ (h.note n).receiverMerkleProof = none) :
    ∃ h', merkleSign S H cod sk arr h = .ok h' ∧
      (∀ n, { h'.note n with receiverMerkleProof := none } = { h.note n with receiverMerkleProof := none }) ∧
      ∀ (cache : Cache) (n : Nat), (Signable.response n ∈ arr ∨ Signable.receiverNote n ∈ arr) →
        (verifyReceiverNote S H cod cache (S.pub sk) (h'.note n)).1 = .ok () := by
  obtain ⟨h', h1, h2, h3, rt, hrt, h4⟩ := merkleSign_ok S H cod sk arr h hlen
  have hsend : ∀ n, (h'.note n).senderMerkleProof = (h.note n).senderMerkleProof := fun n =>
    h3 (.sender n) (fun s hs => by obtain ⟨m, rfl | rfl, -⟩ := hkind s hs <;> simp [Signable.slot])
  have hcont : ∀ n, { h'.note n with receiverMerkleProof := none } = { h.note n with receiverMerkleProof := none } := fun n => by
    have a := h2.note n
    have b := hsend n
    revert a b
    generalize h'.note n = x
    generalize h.note n = y
    intro a b
    cases x; cases y; simp_all [stripNote]
  refine ⟨h', h1, hcont, ?_⟩
  intro cache n hn
  have : ∃ s ∈ arr, s.slot = .receiver n ∧ s.bytes cod h = cod.note (h.note n) ∧ (h.note n).receiverMerkleProof = none := by
    rcases hn with hn | hn
    · obtain ⟨m, hm, hr⟩ := hkind _ hn
      have : m = n := by rcases hm with hm | hm <;> simp at hm; exact hm.symm
      exact ⟨_, hn, rfl, rfl, this ▸ hr⟩
    · obtain ⟨m, hm, hr⟩ := hkind _ hn
      have : m = n := by rcases hm with hm | hm <;> simp at hm; exact hm.symm
      exact ⟨_, hn, rfl, rfl, this ▸ hr⟩
  obtain ⟨s, hs, ha, hb, hr⟩ := this
  obtain ⟨c, hc, g⟩ := h4 s hs
  rw [ha] at hc
  rw [hb] at g
  unfold verifyReceiverNote
  rw [show (h'.note n).receiverMerkleProof = some c from hc, strip_receiver (h2.note n) (hsend n) hr]
  exact (g.verify cache).1

/-- C45, sender notes. -/
theorem C45_sender_side (S : SigScheme) (H : HashFn) (cod : Codec) (sk : S.Sk) (refs : List Nat) (h : Heap) (hlen : refs.length ≤ 2 ^ 64)
    (hempty : ∀ n ∈ refs, (h.note n).senderMerkleProof = none) :
    ∃ h', merkleSign S H cod sk (refs.map .senderNote) h = .ok h' ∧
      (∀ n, { h'.note n with senderMerkleProof := none } = { h.note n with senderMerkleProof := none }) ∧
      ∀ (cache : Cache), ∀ n ∈ refs, (verifySenderNote S H cod cache (S.pub sk) (h'.note n)).1 = .ok () := by
  obtain ⟨h', h1, h2, h3, rt, hrt, h4⟩ := merkleSign_ok S H cod sk (refs.map .senderNote) h (by simpa using hlen)
  have hrec : ∀ n, (h'.note n).receiverMerkleProof = (h.note n).receiverMerkleProof := fun n =>
    h3 (.receiver n) (fun s hs => by obtain ⟨m, -, rfl⟩ := List.mem_map.1 hs; simp [Signable.slot])
  have hcont : ∀ n, { h'.note n with senderMerkleProof := none } = { h.note n with senderMerkleProof := none } := fun n => by
    have a := h2.note n
    have b := hrec n
    revert a b
    generalize h'.note n = x
    generalize h.note n = y
    intro a b
    cases x; cases y; simp_all [stripNote]
  refine ⟨h', h1, hcont, ?_⟩
  intro cache n hn
  obtain ⟨c, hc, g⟩ := h4 (.senderNote n) (List.mem_map_of_mem hn)
  unfold verifySenderNote
  rw [show (h'.note n).senderMerkleProof = some c from hc, strip_sender (h2.note n) (hrec n) (hempty n hn)]
  exact (g.verify cache).1

/-- The certificates of the parcels of a robust call. -/
theorem signRobust_ok (S : SigScheme) (H : HashFn) (cod : Codec) (sk : S.Sk) (ps : List Parcel) (hlen : 2 * ps.length ≤ 2 ^ 64)
    (hps : ∀ (i : Nat) (p : Parcel), ps[i]? = some p → p.relayIndex = (i : Int) ∧ p.signature = none ∧ p.note.senderMerkleProof = none ∧
      p.note.senderID = S.pub sk) :
    ∃ out rt, signRobust S H cod sk ps = .ok out ∧ out.length = ps.length ∧
      (ps ≠ [] → root (build H (ps.map cod.parcel ++ ps.map fun p => cod.note p.note)) = .ok rt) ∧
      ∀ (i : Nat) (q : Parcel), out[i]? = some q →
        (ps[i]? = some { q with signature := none, note := { q.note with senderMerkleProof := none } }) ∧
        ∃ c c2, q.signature = some c ∧ q.note.senderMerkleProof = some c2 ∧
          GoodCert S H sk rt c (cod.parcel { q with signature := none, note := { q.note with senderMerkleProof := none } }) ∧
          GoodCert S H sk rt c2 (cod.note { q.note with senderMerkleProof := none }) := by
  match ps, hlen, hps with
  | [], _, _ => exact ⟨[], .zero, rfl, rfl, by simp, by simp⟩
  | p0 :: ps', hlen, hps =>
    set ps := p0 :: ps' with hpsdef
    set h := allocParcels ps p0 with hh
    set arr := (List.range ps.length).map Signable.parcel ++ (List.range ps.length).map Signable.senderNote with harr
    obtain ⟨h', h1, h2, h3, rt, hrt, h4⟩ := merkleSign_ok S H cod sk arr h (by simp only [harr, List.length_append, List.length_map, List.length_range]; omega)
    have hrec : ∀ n, (h'.note n).receiverMerkleProof = (h.note n).receiverMerkleProof := fun n =>
      h3 (.receiver n) (fun s hs => by
        rcases List.mem_append.1 hs with hs | hs <;> obtain ⟨m, -, rfl⟩ := List.mem_map.1 hs <;> simp [Signable.slot])
    refine ⟨(List.range ps.length).map h'.parcelAt, rt, ?_, by simp, ?_, ?_⟩
    · have : signRobust S H cod sk ps = (merkleSign S H cod sk arr h) >>= fun h => .ok ((List.range ps.length).map h.parcelAt) := rfl
      rw [this, h1]
      rfl
    · intro _
      have hb : arr.map (Signable.bytes cod h) = ps.map cod.parcel ++ ps.map fun p => cod.note p.note := by
        have e1 : ∀ {β : Type} (f : Parcel → β), (List.range ps.length).map (fun i => f (ps.getD i p0)) = ps.map f := by
          intro β f
          apply List.ext_getElem
          · simp
          · intro n h1 h2
            simp only [List.length_map, List.length_range] at h1
            simp only [List.getElem_map, List.getElem_range]
            rw [List.getD_eq_getElem?_getD, List.getElem?_eq_getElem h1]; rfl
        rw [harr, List.map_append, List.map_map, List.map_map, ← e1 cod.parcel, ← e1 fun p => cod.note p.note]
        rfl
      rw [← hb]
      exact hrt (by rw [harr]; simp [hpsdef])
    intro i q hq
    have hi : i < ps.length := by
      by_contra hc
      rw [List.getElem?_eq_none (by simp; omega)] at hq
      simp at hq
    rw [List.getElem?_map, List.getElem?_range hi] at hq
    have hq : h'.parcelAt i = q := by simpa using hq
    have hpi : ps[i]? = some ps[i] := List.getElem?_eq_getElem hi
    obtain ⟨p1, p2, p3, p4⟩ := hps i ps[i] hpi
    have hgd : ps.getD i p0 = ps[i] := by rw [List.getD_eq_getElem?_getD, hpi]; rfl
    have hnote : h.note i = ps[i].note := by simp only [hh, allocParcels, hgd]
    have hpar : h.parcelAt i = ps[i] := by
      simp only [hh, Heap.parcelAt, allocParcels, hgd]
    have hobj := h2.parcel i
    have hr0 : (h.parcel i).noteRef = i := by simp [hh, allocParcels]
    have hr : (h'.parcel i).noteRef = i := by
      have e : (h'.parcel i).noteRef = (h.parcel i).noteRef := (congrArg ParcelObj.noteRef hobj :)
      exact e.trans hr0
    have hqn : q.note = h'.note i := by rw [← hq]; simp [Heap.parcelAt, hr]
    have hnotes : { h'.note i with senderMerkleProof := none } = ps[i].note := by
      rw [← hnote]; exact strip_sender (h2.note i) (hrec i) (by rw [hnote]; exact p3)
    have hcont : { q with signature := none, note := { q.note with senderMerkleProof := none } } = ps[i] := by
      rw [hqn, hnotes, ← hpar]
      have e1 : (h'.parcel i).messageLength = (h.parcel i).messageLength := (congrArg ParcelObj.messageLength hobj :)
      have e2 : (h'.parcel i).payload = (h.parcel i).payload := (congrArg ParcelObj.payload hobj :)
      have e3 : (h'.parcel i).method = (h.parcel i).method := (congrArg ParcelObj.method hobj :)
      have e4 : (h'.parcel i).relayIndex = (h.parcel i).relayIndex := (congrArg ParcelObj.relayIndex hobj :)
      have e5 : (h.parcel i).signature = none := by rw [← p2, ← hpar]; rfl
      rw [← hq]
      simp only [Heap.parcelAt, e1, e2, e3, e4, hr0, hnote, e5]
    refine ⟨by rw [hcont]; exact hpi, ?_⟩
    obtain ⟨c, hc, g⟩ := h4 (.parcel i) (List.mem_append_left _ (List.mem_map_of_mem (List.mem_range.2 hi)))
    obtain ⟨c2, hc2, g2⟩ := h4 (.senderNote i) (List.mem_append_right _ (List.mem_map_of_mem (List.mem_range.2 hi)))
    refine ⟨c, c2, by rw [← hq]; exact hc, by rw [hqn]; exact hc2, ?_, ?_⟩
    · rw [hcont, ← hpar]; exact g
    · rw [hqn, hnotes, ← hnote]; exact g2

/-- C45, robust calls. Parcels without certificates, naming their position as relay index and the signer as the sender, are signed
successfully together with their notes; the signed parcels differ from the given ones in their certificates only, and the server
accepts each of them from its relay, whatever roots its verifier remembers (while no cleanup tick falls between its two checks). -/
theorem C45_robust_call (S : SigScheme) (H : HashFn) (cod : Codec) (sk : S.Sk) (ps : List Parcel) (hlen : 2 * ps.length ≤ 2 ^ 64)
    (hps : ∀ (i : Nat) (p : Parcel), ps[i]? = some p → p.relayIndex = (i : Int) ∧ p.signature = none ∧ p.note.senderMerkleProof = none ∧
      p.note.senderID = S.pub sk) :
    ∃ out, signRobust S H cod sk ps = .ok out ∧ out.length = ps.length ∧
      ∀ (i : Nat) (q : Parcel), out[i]? = some q →
        (ps[i]? = some { q with signature := none, note := { q.note with senderMerkleProof := none } }) ∧
        ∀ cache : Cache, (validateParcel S H cod cache false i q).1 = .ok () := by
  obtain ⟨out, rt, h1, h2, -, h3⟩ := signRobust_ok S H cod sk ps hlen hps
  refine ⟨out, h1, h2, fun i q hq => ?_⟩
  obtain ⟨hcont, c, c2, hsig, hsn, g, g2⟩ := h3 i q hq
  obtain ⟨p1, p2, p3, p4⟩ := hps i _ hcont
  simp only at p1 p4
  refine ⟨hcont, fun cache => ?_⟩
  unfold validateParcel
  rw [if_neg (by simp [p1])]
  simp only
  have hv : verifyParcel S H cod cache q.note.senderID { q with note := { q.note with senderMerkleProof := none } } =
      verifyCall S H cache (S.pub sk) (some c) (cod.parcel { q with signature := none, note := { q.note with senderMerkleProof := none } }) := by
    unfold verifyParcel
    simp only [hsig, p4]
  rw [hv]
  obtain ⟨v1, v2⟩ := g.verify cache
  generalize verifyCall S H cache (S.pub sk) (some c)
    (cod.parcel { q with signature := none, note := { q.note with senderMerkleProof := none } }) = r at v1 v2
  obtain ⟨r1, r2⟩ := r
  simp only at v1 v2
  subst v1
  simp only [Bool.false_eq_true, if_false]
  unfold verifySenderNote
  rw [hsn]
  exact congrArg Prod.fst (g2.verify_cached r2 v2 _)

/-- What the single-note signatures of direct calls and the server's responses amount to. -/
theorem C45_direct_call (S : SigScheme) (H : HashFn) (cod : Codec) (ck sk : S.Sk) (n : ExchangeNote) (hs : n.senderMerkleProof = none)
    (hr : n.receiverMerkleProof = none) :
    ∃ n1 n2, signSenderNote S H cod ck n = .ok n1 ∧ signReceiverNote S H cod sk n1 = .ok n2 ∧
      { n1 with senderMerkleProof := none } = n ∧ { n2 with receiverMerkleProof := none } = n1 ∧
      ∀ cache : Cache, (verifySenderNote S H cod cache (S.pub ck) n1).1 = .ok () ∧ (verifyReceiverNote S H cod cache (S.pub sk) n2).1 = .ok () := by
  obtain ⟨h', h1, h2, h3⟩ := C45_sender_side S H cod ck [0] (allocNote n) (by simp) (by simpa [allocNote] using hs)
  have e0 := h2 0
  simp only [allocNote] at e0
  have e1 : { h'.note 0 with senderMerkleProof := none } = n := by rw [e0]; cases n; simp_all
  have hr1 : (h'.note 0).receiverMerkleProof = none := by
    have e : (h'.note 0).receiverMerkleProof = n.receiverMerkleProof := (congrArg ExchangeNote.receiverMerkleProof e1 :)
    exact e.trans hr
  obtain ⟨h'', g1, g2, g3⟩ := C45_receiver_side S H cod sk [.receiverNote 0] (allocNote (h'.note 0)) (by simp)
    (by simp only [List.mem_singleton]; rintro s rfl; exact ⟨0, Or.inr rfl, by simpa [allocNote] using hr1⟩)
  have f0 := g2 0
  simp only [allocNote] at f0
  have f1 : { h''.note 0 with receiverMerkleProof := none } = h'.note 0 := by
    rw [f0]
    revert hr1
    generalize h'.note 0 = x
    intro hr1
    cases x; simp_all
  refine ⟨h'.note 0, h''.note 0, ?_, ?_, e1, f1, fun cache => ⟨h3 cache 0 (by simp), g3 cache 0 (by simp)⟩⟩
  · unfold signSenderNote
    simp only [List.map_cons, List.map_nil] at h1
    rw [h1]; rfl
  · unfold signReceiverNote
    rw [g1]; rfl

/-- The server's responses to a robust call: all pointing to one note, or each with its own copy. -/
theorem C45_responses (S : SigScheme) (H : HashFn) (cod : Codec) (sk : S.Sk) (shared : Bool) (n : Nat) (hn : n ≤ 2 ^ 64) (note : ExchangeNote)
    (hr : note.receiverMerkleProof = none) :
    ∃ out, signResponses S H cod sk shared n note = .ok out ∧ out.length = n ∧
      ∀ m ∈ out, { m with receiverMerkleProof := none } = note ∧ ∀ cache : Cache, (verifyReceiverNote S H cod cache (S.pub sk) m).1 = .ok () := by
  obtain ⟨h', h1, h2, h3⟩ := C45_receiver_side S H cod sk ((List.range n).map fun i => .response (if shared then 0 else i)) (allocNote note)
    (by simpa using hn) (by
      intro s hs
      obtain ⟨i, -, rfl⟩ := List.mem_map.1 hs
      exact ⟨_, Or.inl rfl, by simpa [allocNote] using hr⟩)
  refine ⟨(List.range n).map fun i => h'.note (if shared then 0 else i), ?_, by simp, ?_⟩
  · unfold signResponses
    simp only [h1, bind, Except.bind]
  · intro m hm
    obtain ⟨i, hi, rfl⟩ := List.mem_map.1 hm
    refine ⟨?_, fun cache => h3 cache _ (Or.inl (List.mem_map.2 ⟨i, hi, rfl⟩))⟩
    have := h2 (if shared then 0 else i)
    simp only [allocNote] at this
    rw [this]; cases note; simp_all

/-- A parcel for position `i` as in the example below. -/
def exampleParcel (pk : Bytes) (i : Nat) : Parcel :=
  { messageLength := [1, 0, 0, 0], payload := [[7]], method := [47, 65], relayIndex := i
    note := { senderID := pk, receiverID := [9], senderMerkleProof := none, receiverMerkleProof := none, calluuid := [1] }, signature := none }

/-- The hypotheses of `C45_robust_call` are met, for every signature scheme, by parcels like those of a two-server network. -/
example (S : SigScheme) (sk : S.Sk) : ∀ (i : Nat) (p : Parcel), [exampleParcel (S.pub sk) 0, exampleParcel (S.pub sk) 1][i]? = some p →
    p.relayIndex = (i : Int) ∧ p.signature = none ∧ p.note.senderMerkleProof = none ∧ p.note.senderID = S.pub sk := by
  intro i p h
  match i, h with
  | 0, h => simp at h; subst h; simp [exampleParcel]
  | 1, h => simp at h; subst h; simp [exampleParcel]
  | (k + 2), h => simp at h

end Resmix.Rrpc
