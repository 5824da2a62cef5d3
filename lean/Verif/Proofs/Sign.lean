import Verif.Model.Sign
import Verif.Props.Merkle
set_option autoImplicit false
namespace Resmix.Rrpc
open Resmix.Merkle

/-- Where a certificate is stored. -/
inductive Slot
  | parcel (p : Nat)
  | sender (n : Nat)
  | receiver (n : Nat)
deriving DecidableEq

def Signable.slot : Signable → Slot
  | .parcel p => .parcel p
  | .response n => .receiver n
  | .senderNote n => .sender n
  | .receiverNote n => .receiver n

def Heap.slotAt (h : Heap) : Slot → Option MerkleCertificate
  | .parcel p => (h.parcel p).signature
  | .sender n => (h.note n).senderMerkleProof
  | .receiver n => (h.note n).receiverMerkleProof

theorem bytes_of_slot (cod : Codec) (h : Heap) (s s' : Signable) (he : s.slot = s'.slot) : s.bytes cod h = s'.bytes cod h := by
  cases s <;> cases s' <;> simp_all [Signable.slot, Signable.bytes]

theorem slotAt_setCert (h : Heap) (c : MerkleCertificate) (s : Signable) (σ : Slot) :
    (s.setCert h c).slotAt σ = if s.slot = σ then some c else h.slotAt σ := by
  cases s <;> cases σ <;> simp only [Signable.setCert, Heap.slotAt, Signable.slot, Slot.parcel.injEq, Slot.sender.injEq, Slot.receiver.injEq,
    reduceCtorEq, if_false] <;> (split <;> (try split)) <;> simp_all

/-- A note without its certificates. -/
def stripNote (n : ExchangeNote) : ExchangeNote := { n with senderMerkleProof := none, receiverMerkleProof := none }

/-- A parcel object without its certificate. -/
def stripParcel (p : ParcelObj) : ParcelObj := { p with signature := none }

/-- Two heaps that differ in certificates only. -/
structure SameBut (h h' : Heap) : Prop where
  note : ∀ n, stripNote (h'.note n) = stripNote (h.note n)
  parcel : ∀ p, stripParcel (h'.parcel p) = stripParcel (h.parcel p)

theorem SameBut.refl (h : Heap) : SameBut h h := ⟨fun _ => rfl, fun _ => rfl⟩

theorem sameBut_setCert (h : Heap) (c : MerkleCertificate) (s : Signable) : SameBut h (s.setCert h c) := by
  cases s <;> constructor <;> intro q <;> simp only [Signable.setCert] <;> (try split) <;> simp_all [stripNote, stripParcel]

theorem SameBut.trans {h h' h'' : Heap} (a : SameBut h h') (b : SameBut h' h'') : SameBut h h'' :=
  ⟨fun n => (b.note n).trans (a.note n), fun p => (b.parcel p).trans (a.parcel p)⟩

theorem signLoop_ok (H : HashFn) (t : Tree) (rt : Digest) (sig : Bytes) (pf : Nat → List Digest) (l : List (Signable × Nat)) (h : Heap)
    (hp : ∀ x ∈ l, prove H t [x.2] = .ok (pf x.2)) :
    ∃ h', signLoop H t rt sig l h = .ok h' ∧ SameBut h h' ∧
      ∀ σ, (h'.slotAt σ = h.slotAt σ ∧ ∀ x ∈ l, x.1.slot ≠ σ) ∨ ∃ x ∈ l, x.1.slot = σ ∧ h'.slotAt σ = some (mkCert rt (pf x.2) x.2 sig) := by
  induction l generalizing h with
  | nil => exact ⟨h, rfl, .refl h, fun σ => Or.inl ⟨rfl, by simp⟩⟩
  | cons x l ih =>
    obtain ⟨s, i⟩ := x
    obtain ⟨h', h1, h2, h3⟩ := ih (s.setCert h (mkCert rt (pf i) i sig)) (fun x hx => hp x (List.mem_cons_of_mem _ hx))
    refine ⟨h', ?_, (sameBut_setCert h _ s).trans h2, fun σ => ?_⟩
    · have hpi := hp (s, i) List.mem_cons_self
      simp only at hpi
      simp only [signLoop, hpi, bind, Except.bind]
      exact h1
    · rcases h3 σ with ⟨ha, hb⟩ | ⟨x, hx, ha, hb⟩
      · rw [slotAt_setCert] at ha
        by_cases hs : s.slot = σ
        · right
          exact ⟨(s, i), List.mem_cons_self, hs, by rw [ha, if_pos hs]⟩
        · left
          rw [if_neg hs] at ha
          refine ⟨ha, fun x hx => ?_⟩
          rcases List.mem_cons.1 hx with rfl | hx
          · exact hs
          · exact hb x hx
      · exact Or.inr ⟨x, List.mem_cons_of_mem _ hx, ha, hb⟩

theorem fitDigest_val (d : Digest) : fitDigest d.1 = d := by
  apply Subtype.ext
  simp [fitDigest, d.2]

/-- A certificate that a sequential verification accepts whatever the cache. -/
structure GoodCert (S : SigScheme) (H : HashFn) (sk : S.Sk) (rt : Digest) (c : MerkleCertificate) (enc : Bytes) : Prop where
  root : fitDigest c.root = rt
  path : authPath H c enc = .ok ()
  sig : c.signature = S.sign sk rt

theorem sigResult_pub (S : SigScheme) (sk : S.Sk) (c : MerkleCertificate) (h : c.signature = S.sign sk (fitDigest c.root)) :
    sigResult S (S.pub sk) c = .ok () := by
  simp [sigResult, owVerify, S.pub_len, h, S.correct]

theorem GoodCert.verify {S : SigScheme} {H : HashFn} {sk : S.Sk} {rt : Digest} {c : MerkleCertificate} {enc : Bytes} (g : GoodCert S H sk rt c enc)
    (cache : Cache) : (verifyCall S H cache (S.pub sk) (some c) enc).1 = .ok () ∧ rt ∈ (verifyCall S H cache (S.pub sk) (some c) enc).2 := by
  have hs : sigResult S (S.pub sk) c = .ok () := sigResult_pub S sk c (by rw [g.root, g.sig])
  simp only [verifyCall, g.path, g.root, hs]
  split
  · next h => exact ⟨rfl, h⟩
  · exact ⟨rfl, List.mem_cons_self⟩

theorem GoodCert.verify_cached {S : SigScheme} {H : HashFn} {sk : S.Sk} {rt : Digest} {c : MerkleCertificate} {enc : Bytes}
    (g : GoodCert S H sk rt c enc) (cache : Cache) (hc : rt ∈ cache) (pk : Bytes) : verifyCall S H cache pk (some c) enc = (.ok (), cache) := by
  simp only [verifyCall, g.path, g.root, if_pos hc]

/-- What `merkleSign` does: it succeeds, changes certificates only, and the slot of every entry holds a certificate that is good for
the bytes that were hashed for the entry. -/
theorem merkleSign_ok (S : SigScheme) (H : HashFn) (cod : Codec) (sk : S.Sk) (arr : List Signable) (h : Heap) (hlen : arr.length ≤ 2 ^ 64) :
    ∃ h', merkleSign S H cod sk arr h = .ok h' ∧ SameBut h h' ∧
      (∀ σ, (∀ s ∈ arr, s.slot ≠ σ) → h'.slotAt σ = h.slotAt σ) ∧
      ∃ rt, (arr ≠ [] → root (build H (arr.map (Signable.bytes cod h))) = .ok rt) ∧ ∀ s ∈ arr, ∃ c, h'.slotAt s.slot = some c ∧ GoodCert S H sk rt c (s.bytes cod h) := by
  by_cases hne : arr = []
  · subst hne
    refine ⟨h, rfl, .refl h, fun _ _ => rfl, ⟨.zero, by simp, by simp⟩⟩
  set encs := arr.map (Signable.bytes cod h) with hencs
  have hel : encs.length = arr.length := by simp [hencs]
  have hpos : 0 < arr.length := List.length_pos_iff.2 hne
  obtain ⟨rt, pf0, hrt, -, -⟩ := C42_proofs_verify H encs (by omega) [0] (by simp) (by simp; omega)
  have hall : ∀ i, ∃ proof, i < encs.length → prove H (build H encs) [i] = .ok proof ∧ ∀ e, encs[i]? = some e → Merkle.verify H rt [(i, e)] proof = .ok () := by
    intro i
    by_cases hi : i < encs.length
    · obtain ⟨rt', proof, h1, h2, h3⟩ := C42_proofs_verify H encs (by omega) [i] (by simp) (by simpa using hi)
      have : rt' = rt := by rw [hrt] at h1; injection h1 with h1; exact h1.symm
      subst this
      refine ⟨proof, fun _ => ⟨h2, fun e he => h3 [(i, e)] (by simp [GoMap.NodupKeys]) (fun j e' => ?_)⟩⟩
      simp only [List.mem_cons, List.not_mem_nil, or_false, Prod.mk.injEq]
      constructor
      · rintro ⟨rfl, rfl⟩; exact ⟨rfl, he⟩
      · rintro ⟨rfl, h⟩; rw [he] at h; exact ⟨rfl, by injection h with h; exact h.symm⟩
    · exact ⟨[], fun h => absurd h hi⟩
  choose pf hpf using hall
  have hz : ∀ x ∈ arr.zipIdx, x.2 < arr.length ∧ arr[x.2]? = some x.1 := by
    intro x hx
    have := List.mem_zipIdx_iff_getElem?.1 hx
    refine ⟨?_, this⟩
    by_contra hc
    rw [List.getElem?_eq_none (by omega)] at this
    simp at this
  obtain ⟨h', h1, h2, h3⟩ := signLoop_ok H (build H encs) rt (S.sign sk rt) pf arr.zipIdx h (fun x hx => (hpf x.2 (by rw [hel]; exact (hz x hx).1)).1)
  refine ⟨h', ?_, h2, ?_, rt, fun _ => hrt, ?_⟩
  · unfold merkleSign
    simp only [← hencs, hrt, bind, Except.bind]
    exact h1
  · intro σ hσ
    rcases h3 σ with ⟨ha, -⟩ | ⟨x, hx, ha, -⟩
    · exact ha
    · exact absurd ha (hσ x.1 (List.mem_of_getElem? (hz x hx).2))
  · intro s hs
    rcases h3 s.slot with ⟨-, hb⟩ | ⟨x, hx, ha, hb⟩
    · obtain ⟨i, hi⟩ := List.getElem?_of_mem hs
      exact absurd rfl (hb (s, i) (List.mem_zipIdx_iff_getElem?.2 hi))
    · refine ⟨_, hb, ?_, ?_, rfl⟩
      · exact fitDigest_val rt
      · obtain ⟨hz1, hz2⟩ := hz x hx
        have hv := (hpf x.2 (by omega)).2 (x.1.bytes cod h) (by rw [hencs, List.getElem?_map, hz2]; rfl)
        rw [bytes_of_slot cod h x.1 s ha] at hv
        unfold authPath mkCert
        simp only [fitDigest_val, List.map_map]
        have : (pf x.2).map (fitDigest ∘ Subtype.val) = pf x.2 := by
          conv_rhs => rw [← List.map_id (pf x.2)]
          exact List.map_congr_left (fun d _ => fitDigest_val d)
        rw [this]; exact hv

end Resmix.Rrpc
