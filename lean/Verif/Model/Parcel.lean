import Verif.Model.Network
import Verif.Model.Cert
set_option autoImplicit false
/-
Splitting calls and replies into parcels and putting them together again: rrpc/ecc_packing.go, rrpc/client.go:279-349,
rrpc/rrpc_server_stream.go:224-279.
-/
namespace Resmix.Rrpc
open Resmix.Ecc

/-- `binary.LittleEndian.PutUint32(b, uint32(n))` (rrpc/client.go:292, rrpc/rrpc_server_stream.go:256). -/
def le32 (n : Nat) : Bytes := [UInt8.ofNat n, UInt8.ofNat (n / 2^8), UInt8.ofNat (n / 2^16), UInt8.ofNat (n / 2^24)]

/-- `binary.LittleEndian.Uint32(b)` (rrpc/client.go:335, rrpc/rrpc_server_stream.go:229): panics for fewer than four bytes. -/
def leUint32 : Bytes → Go Nat
  | a :: b :: c :: d :: _ => .ok (a.toNat + b.toNat * 2^8 + c.toNat * 2^16 + d.toNat * 2^24)
  | _ => .error .panic

/-- rrpc/ecc_packing.go:12-17, 27-32 `InsertECCPayload`: the payload of relay `i`. -/
def eccPayload (shards : List (List Bytes)) (i : Nat) : Go (List Bytes) := shards.mapM fun chunk => goIndex chunk i

/-- rrpc/ecc_packing.go:19-23, 34-38 `PutIntoShards`. -/
def putIntoShards (shards : List (List Bytes)) (relayIndex : Int) (payload : List Bytes) : Go (List (List Bytes)) :=
  shards.zipIdx.mapM fun (row, i) => do
    let p ← goIndex payload i
    if relayIndex < 0 then .error .panic else goSet row relayIndex.toNat p

/-- rrpc/client.go:301-317: the parcel for relay `i`. -/
def mkParcel (method : Str) (note : ExchangeNote) (msgLength : Bytes) (chunks : List (List Bytes)) (i : Nat) : Go Parcel := do
  let p ← eccPayload chunks i
  .ok { messageLength := msgLength, payload := p, method := method, relayIndex := (i : Int), note := note, signature := none }

/-- rrpc/client.go:285-321: the parcels for given code words. -/
def robustParcels (net : Network) (method : Str) (note : ExchangeNote) (margs : Bytes) (chunks : List (List Bytes)) : Go (List Parcel) :=
  (List.range net.serverAddresses.length).mapM (mkParcel method note (le32 margs.length) chunks)

/-- rrpc/client.go:279-321 `requestIntoRobust` of a packed request: `res` is a possible result. Every parcel gets its own note
object with the contents `note` (certificates still nil). -/
def RequestIntoRobust (C : RS) (stopped : Bool) (net : Network) (method : Str) (note : ExchangeNote) (margs : Bytes) (res : Go (List Parcel)) : Prop :=
  if margs.length > 2^32 - 1 then res = .error (.err .unknown "message size is too big")
  else ∃ enc, AuthEncode C stopped margs enc ∧ res = match enc with
    | .error _ => .error (.err .unknown "failure in encoding, client side")
    | .ok chunks => robustParcels net method note margs chunks

/-- rrpc/rrpc_server_stream.go:233-237 and rrpc/client.go:339-341. -/
def fillShards (C : RS) (ps : List (Int × List Bytes)) : Go (List (List Bytes)) :=
  ps.foldlM (fun sh p => putIntoShards sh p.1 p.2) (newShards C)

/-- rrpc/rrpc_server_stream.go:224-245 `reconstructParcels`: `res` is a possible result. -/
def ReconstructParcels (C : RS) (stopped : Bool) (parcels : List Parcel) (res : Go Bytes) : Prop :=
  match parcels with
  | [] => res = .error (.err .internal "reached reconstruction with 0 parcels")
  | p :: _ => match leUint32 p.messageLength with
    | .error e => res = .error e
    | .ok size => match fillShards C (parcels.map fun p => (p.relayIndex, p.payload)) with
      | .error e => res = .error e
      | .ok shards => ∃ out, AuthReconstruct C stopped shards size out ∧ res = match out with
        | .ok d => .ok d
        | .error .panic => .error .panic
        | .error _ => .error (.err .invalidArgument "server reconstruction failure")

/-- rrpc/rrpc_server_stream.go:265-274: the reply part for relay `i`. -/
def mkReply (msgLength : Bytes) (chunks : List (List Bytes)) (i : Nat) : Go RrpcResponse := do
  let p ← eccPayload chunks i
  .ok { payload := p, messageLength := msgLength, relayIndex := (i : Int) }

/-- rrpc/rrpc_server_stream.go:247-279 `prepareCallResponse`, the part after marshalling: `buf` are the bytes of the buffer. The
length is truncated to 32 bits without a check. -/
def ReplyParts (C : RS) (stopped : Bool) (net : Network) (buf : Bytes) (res : Go (List RrpcResponse)) : Prop :=
  ∃ enc, AuthEncode C stopped buf enc ∧ res = match enc with
    | .error _ => .error (.err .internal "failure in encoding serverside")
    | .ok chunks => (List.range net.serverAddresses.length).mapM (mkReply (le32 buf.length) chunks)

/-- rrpc/client.go:339-341: the position and the shards of one reply part (a nil pointer dereference panics). -/
def respShards : Option RrpcResponse → Go (Int × List Bytes)
  | none => .error .panic
  | some r => .ok (r.relayIndex, r.payload)

/-- rrpc/client.go:323-349 `reconstruct`: `res` is a possible result. A response without reply part is a nil pointer whose fields
are read: panic. -/
def Reconstruct (C : RS) (stopped : Bool) (parts : List (Option RrpcResponse)) (res : Go Bytes) : Prop :=
  match parts with
  | [] => res = .error (.err (.other 15) "no parcels received")
  | none :: _ => res = .error .panic
  | some p :: _ => match leUint32 p.messageLength with
    | .error e => res = .error e
    | .ok size => match parts.mapM respShards with
      | .error e => res = .error e
      | .ok ps => match fillShards C ps with
        | .error e => res = .error e
        | .ok shards => ∃ out, AuthReconstruct C stopped shards size out ∧ res = match out with
          | .ok d => .ok d
          | .error .panic => .error .panic
          | .error _ => .error (.err .internal "client: reconstructing failed")

end Resmix.Rrpc
