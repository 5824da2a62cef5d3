import Verif.Model.Parcel
import Verif.Model.Verifier
set_option autoImplicit false
/-
The client side of a robust call: rrpc/coordinator.go:163-232 and rrpc/client.go:265-276.
-/
namespace Resmix.Rrpc
open Resmix.Ecc

/-- rrpc/rrpc.proto `RelayStreamResponse`; nil pointers are `none`. -/
structure RelayStreamResponse where
  relayStreamError : Option RpcStatus
  response : Option CallStreamResponse
  uuid : Str
deriving DecidableEq, Repr

/-- An error value seen by a caller: a gRPC status, another error (or a panic), or a finished context. -/
inductive CallErr
  | status (s : RpcStatus)
  | other (f : Fail)
  | ctxDone
deriving DecidableEq

/-- `status.ErrorProto(s)` (google.golang.org/grpc v1.51.0, status and internal/status: `FromProto(s).Err()`), also
`status.Error(c, msg)`: nil for the code OK. -/
def statusErr (s : RpcStatus) : Except CallErr Unit := if s.code = 0 then .ok () else .error (.status s)

/-- A Go error result as an error of a call. -/
def liftGo {α : Type} : Go α → Except CallErr α
  | .ok a => .ok a
  | .error e => .error (.other e)

/-- rrpc/coordinator.go:218-232 `validateRrpcResponse`. `ver` is what `Verify(serverId, r.Response)` returns if it is reached with a
non-nil note; for a nil note it panics (rrpc/verifiables.go:156-158). -/
def validateRrpcResponse (ver : Go Unit) (r : RelayStreamResponse) : Except CallErr Unit :=
  match r.relayStreamError with
  | some s => statusErr s
  | none => match r.response with
    | none => .error (.status { code := 13, message := "empty response".toUTF8.toList })
    | some c => match c.rpcError with
      | some s => statusErr s
      | none => match c.note with
        | none => .error (.other .panic)
        | some _ => liftGo ver

/-- What the receive loop of `RobustRequest` selects: an answer (with the result of `Verify` for it), or one of the two contexts. -/
inductive RobustEv
  | answer (r : RelayStreamResponse) (ver : Go Unit)
  | done

/-- rrpc/coordinator.go:184-215: the receive loop of `RobustRequest`; `none`: it still waits after these events. Sending the requests
(lines 172-182) is not modelled: the send channels are drained by a goroutine per connection. -/
def robustLoop (minParcels maxErrors : Int) : List RobustEv → Int → List (Option CallStreamResponse) → Option (Except CallErr (List (Option CallStreamResponse)))
  | [], _, _ => none
  | .done :: _, _, _ => some (.error .ctxDone)
  | .answer r ver :: rest, errs, acc => match validateRrpcResponse ver r with
    | .error (.other .panic) => some (.error (.other .panic))
    | .error e => if errs + 1 > maxErrors then some (.error e) else robustLoop minParcels maxErrors rest (errs + 1) acc
    | .ok () =>
      if ((acc ++ [r.response]).length : Int) ≥ minParcels then some (.ok (acc ++ [r.response]))
      else robustLoop minParcels maxErrors rest errs (acc ++ [r.response])

/-- rrpc/coordinator.go:163-216 `RobustRequest` for as many requests as there are relays. -/
def robustRequest (net : Network) (evs : List RobustEv) : Option (Except CallErr (List (Option CallStreamResponse))) :=
  robustLoop net.minimalRelayedParcels net.maxErrors evs 0 []

/-- rrpc/client.go:265-275: the reply bytes of a robust call; `res` is a possible result, `none` if the call still waits. A nil response
or a response without reply part makes `reconstruct` panic (rrpc/client.go:332-340). -/
def RobustReply (C : RS) (stopped : Bool) (net : Network) (evs : List RobustEv) (res : Option (Except CallErr Bytes)) : Prop :=
  match robustRequest net evs with
  | none => res = none
  | some (.error e) => res = some (.error e)
  | some (.ok rs) => ∃ out, Reconstruct C stopped (rs.map fun r => r.bind (·.response)) out ∧ res = some (liftGo out)

end Resmix.Rrpc
