import Verif.Model.Verifier
set_option autoImplicit false
/-
Model of rrpc/verifiables.go:38-224: signing a list of objects with one Merkle tree. Objects are pointers, and several of them may
reach the same note, so signing is a function on a heap.
-/
namespace Resmix.Rrpc
open Resmix.Merkle

/-- A `Parcel` object (rrpc/rrpc.proto): its note is a pointer. -/
structure ParcelObj where
  messageLength : Bytes
  payload : List Bytes
  method : Str
  relayIndex : Int
  noteRef : Nat
  signature : Option MerkleCertificate

/-- The objects reachable from the list to be signed; addresses are numbers, nil pointers do not occur. -/
structure Heap where
  note : Nat → ExchangeNote
  parcel : Nat → ParcelObj

/-- The value of a parcel object. -/
def Heap.parcelAt (h : Heap) (p : Nat) : Parcel :=
  { messageLength := (h.parcel p).messageLength, payload := (h.parcel p).payload, method := (h.parcel p).method
    relayIndex := (h.parcel p).relayIndex, note := h.note (h.parcel p).noteRef, signature := (h.parcel p).signature }

/-- The implementations of `MerkleCertifiable` (rrpc/verifiables.go:96-224). A `RelayRequest` hashes and certifies its parcel; of a
`CallStreamResponse` only the note matters. -/
inductive Signable
  | parcel (p : Nat)
  | response (note : Nat)
  | senderNote (note : Nat)
  | receiverNote (note : Nat)
deriving DecidableEq

/-- The bytes written by `ToBeHashed` (rrpc/verifiables.go:105-107, 131-139, 152-154, 187-189, 213-215). -/
def Signable.bytes (cod : Codec) (h : Heap) : Signable → Bytes
  | .parcel p => cod.parcel (h.parcelAt p)
  | .response n => cod.note (h.note n)
  | .senderNote n => cod.note (h.note n)
  | .receiverNote n => cod.note (h.note n)

/-- `SetMerkleCert` (rrpc/verifiables.go:96-103, 120-122, 143-150, 191-198, 217-224). -/
def Signable.setCert (h : Heap) (cert : MerkleCertificate) : Signable → Heap
  | .parcel p => { h with parcel := fun q => if q = p then { h.parcel p with signature := some cert } else h.parcel q }
  | .response n => { h with note := fun m => if m = n then { h.note n with receiverMerkleProof := some cert } else h.note m }
  | .senderNote n => { h with note := fun m => if m = n then { h.note n with senderMerkleProof := some cert } else h.note m }
  | .receiverNote n => { h with note := fun m => if m = n then { h.note n with receiverMerkleProof := some cert } else h.note m }

/-- The certificate of leaf `i` (rrpc/verifiables.go:70-79 `proofIntoBytes`, 97-102). -/
def mkCert (root : Digest) (proof : List Digest) (i : Nat) (sig : Bytes) : MerkleCertificate :=
  { root := root.1, path := proof.map Subtype.val, index := i, signature := sig }

/-- rrpc/verifiables.go:58-65: the loop of `merkleSign`. -/
def signLoop (H : HashFn) (t : Tree) (root : Digest) (sig : Bytes) : List (Signable × Nat) → Heap → Go Heap
  | [], h => .ok h
  | (s, i) :: rest, h => do
    let proof ← prove H t [i]
    signLoop H t root sig rest (s.setCert h (mkCert root proof i sig))

/-- rrpc/verifiables.go:38-68 `merkleSign`. All objects are hashed before the first certificate is set. -/
def merkleSign (S : SigScheme) (H : HashFn) (cod : Codec) (sk : S.Sk) (arr : List Signable) (h : Heap) : Go Heap := do
  let t := build H (arr.map (Signable.bytes cod h))
  let rt ← root t
  signLoop H t rt (S.sign sk rt) arr.zipIdx h

/-- The objects made by `requestIntoRobust` (rrpc/client.go:299-318): parcel `i` has the note object `i` of its own. -/
def allocParcels (ps : List Parcel) (dflt : Parcel) : Heap :=
  { note := fun i => (ps.getD i dflt).note
    parcel := fun i => let p := ps.getD i dflt
                       { messageLength := p.messageLength, payload := p.payload, method := p.method, relayIndex := p.relayIndex
                         noteRef := i, signature := p.signature } }

/-- rrpc/client.go:252-263: `RobustCall` signs all parcels and the notes in them in one tree; the signed parcels are returned. -/
def signRobust (S : SigScheme) (H : HashFn) (cod : Codec) (sk : S.Sk) (ps : List Parcel) : Go (List Parcel) :=
  match ps with
  | [] => .ok []
  | p :: _ => do
    let signables := (List.range ps.length).map Signable.parcel ++ (List.range ps.length).map Signable.senderNote
    let h ← merkleSign S H cod sk signables (allocParcels ps p)
    .ok ((List.range ps.length).map h.parcelAt)

/-- The objects of a single note. -/
def allocNote (n : ExchangeNote) : Heap :=
  { note := fun _ => n
    parcel := fun _ => { messageLength := [], payload := [], method := [], relayIndex := 0, noteRef := 0, signature := none } }

/-- rrpc/client.go:110-122: the note of a direct call, signed by the caller. -/
def signSenderNote (S : SigScheme) (H : HashFn) (cod : Codec) (sk : S.Sk) (n : ExchangeNote) : Go ExchangeNote := do
  let h ← merkleSign S H cod sk [.senderNote 0] (allocNote n)
  .ok (h.note 0)

/-- rrpc/server.go:149-153: the note of a direct call, signed by the server. -/
def signReceiverNote (S : SigScheme) (H : HashFn) (cod : Codec) (sk : S.Sk) (n : ExchangeNote) : Go ExchangeNote := do
  let h ← merkleSign S H cod sk [.receiverNote 0] (allocNote n)
  .ok (h.note 0)

/-- rrpc/rrpc_server_stream.go:161-172 with 263-276 (`shared`: all responses point to the saved note) or 288-301 (every response has
its own copy): the note of the response for each of the `n` relays after signing. -/
def signResponses (S : SigScheme) (H : HashFn) (cod : Codec) (sk : S.Sk) (shared : Bool) (n : Nat) (note : ExchangeNote) : Go (List ExchangeNote) := do
  let ref := fun i => if shared then 0 else i
  let h ← merkleSign S H cod sk ((List.range n).map fun i => .response (ref i)) (allocNote note)
  .ok ((List.range n).map fun i => h.note (ref i))

end Resmix.Rrpc
