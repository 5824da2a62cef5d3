import Verif.Model.Strings
set_option autoImplicit false
/-
The messages of rrpc/rrpc.proto that carry signatures.
-/
namespace Resmix.Rrpc

/-- rrpc/rrpc.proto `MerkleCertificate`. -/
structure MerkleCertificate where
  root : Bytes
  path : List Bytes
  index : Nat
  signature : Bytes
deriving DecidableEq, Repr

/-- rrpc/rrpc.proto `ExchangeNote`. -/
structure ExchangeNote where
  senderID : Bytes
  receiverID : Bytes
  senderMerkleProof : Option MerkleCertificate
  receiverMerkleProof : Option MerkleCertificate
  calluuid : Str
deriving DecidableEq, Repr

/-- rrpc/rrpc.proto `Parcel` with a non-nil note. -/
structure Parcel where
  messageLength : Bytes
  payload : List Bytes
  method : Str
  relayIndex : Int
  note : ExchangeNote
  signature : Option MerkleCertificate
deriving DecidableEq, Repr

/-- rrpc/rrpc.proto `rrpcResponse`. -/
structure RrpcResponse where
  payload : List Bytes
  messageLength : Bytes
  relayIndex : Int
deriving DecidableEq, Repr

/-- google.rpc.Status: code and message. -/
structure RpcStatus where
  code : Nat
  message : Str
deriving DecidableEq, Repr

/-- rrpc/rrpc.proto `CallStreamResponse`; nil pointers are `none`. -/
structure CallStreamResponse where
  response : Option RrpcResponse
  rpcError : Option RpcStatus
  publicKey : Bytes
  note : Option ExchangeNote
deriving DecidableEq, Repr

end Resmix.Rrpc
