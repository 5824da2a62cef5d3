import Verif.Model.Services
import Verif.Model.Request
import Verif.Model.Collector
import Verif.Model.Robust
set_option autoImplicit false
/-
Direct calls: rrpc/server.go:96-189 and rrpc/client.go:104-175. The texts of errors made by the code are simplified.
-/
namespace Resmix.Rrpc
open Resmix.Merkle

/-- rrpc/rrpc.proto `DirectCallRequest`; a nil note is `none`. -/
structure DirectCallRequest where
  method : Str
  payload : Bytes
  note : Option ExchangeNote
deriving DecidableEq

/-- The oneof `result` of rrpc/rrpc.proto `DirectCallResponse`; it may be unset. -/
inductive DirectResult
  | rpcError (s : RpcStatus)
  | payload (b : Bytes)
  | unset
deriving DecidableEq

/-- rrpc/rrpc.proto `DirectCallResponse`. -/
structure DirectCallResponse where
  note : Option ExchangeNote
  result : DirectResult
deriving DecidableEq

variable {ζ μ ν ω : Type}

/-- What a handler does when it is run with the server object, the call id in its context and the argument bytes: an error, or a value,
given by the bytes the codec writes for it or the codec's error. -/
abbrev Handler (ζ μ : Type) := ζ → μ → Str → Bytes → Except SvcErr (Except Str Bytes)

/-- A run of a handler: server object, handler, call id, argument bytes. -/
abbrev HandlerRun (ζ μ : Type) := ζ × μ × Str × Bytes

/-- rrpc/server.go:169-180 `intoDirectCallResponse`. -/
def intoDirectCallResponse : Except SvcErr (Except Str Bytes) → Except Str DirectResult
  | .error e => .ok (.rpcError (errToRpcErr e))
  | .ok (.error msg) => .error msg
  | .ok (.ok b) => .ok (.payload b)

/-- What `Recv` gives to the loop of a direct-call stream: an error (or the end), or a request; `ver` is what `Verify` returns for its note
if it is asked, `sendFails` whether sending the response fails. -/
inductive DirectEv
  | recvErr
  | request (q : DirectCallRequest) (ver : Go Unit) (sendFails : Bool)

/-- One iteration of rrpc/server.go:115-166: handler runs, responses sent, and how the stream ends, `none` if it goes on. -/
def directStep (S : SigScheme) (H : HashFn) (cod : Codec) (sk : S.Sk) (svcs : Services ζ μ) (handler : Handler ζ μ) (clientPkey : Bytes) :
    DirectEv → List (HandlerRun ζ μ) × List DirectCallResponse × Option Fail
  | .recvErr => ([], [], some (.err .internal "recv"))
  | .request q ver sendFails => match svcs.get q.method with
    | .error _ => ([], [], some (.err .unknown "method"))
    | .ok (srv, m) => match q.note with
      | none => ([], [], some (.err .invalidArgument "missing note"))
      | some n =>
        if clientPkey ≠ n.senderID then ([], [], some (.err .invalidArgument "sender id"))
        else match ver with
          | .error .panic => ([], [], some .panic)
          | .error _ => ([], [], some (.err .invalidArgument "certificate"))
          | .ok () =>
            let ran := [(srv, m, n.calluuid, q.payload)]
            match intoDirectCallResponse (handler srv m n.calluuid q.payload) with
            | .error _ => (ran, [], some (.err .internal "marshal"))
            | .ok result => match signReceiverNote S H cod sk n with
              | .error .panic => (ran, [], some .panic)
              | .error _ => (ran, [], some (.err .internal "sign"))
              | .ok n' =>
                if sendFails then (ran, [], some (.err .internal "send"))
                else (ran, [{ note := some n', result := result }], none)

/-- rrpc/server.go:115-166: the loop. -/
def directLoop (S : SigScheme) (H : HashFn) (cod : Codec) (sk : S.Sk) (svcs : Services ζ μ) (handler : Handler ζ μ) (clientPkey : Bytes) :
    List DirectEv → List (HandlerRun ζ μ) × List DirectCallResponse × Option Fail
  | [] => ([], [], none)
  | e :: es => match directStep S H cod sk svcs handler clientPkey e with
    | (ran, sent, some fin) => (ran, sent, some fin)
    | (ran, sent, none) =>
      let r := directLoop S H cod sk svcs handler clientPkey es
      (ran ++ r.1, sent ++ r.2.1, r.2.2)

/-- rrpc/server.go:103-167 `DirectCall`; `caller` is the caller entry of the stream's metadata (rrpc/peer.go:11-23). -/
def directCall (S : SigScheme) (H : HashFn) (cod : Codec) (sk : S.Sk) (svcs : Services ζ μ) (handler : Handler ζ μ) (net : Network) (caller : Option Str)
    (evs : List DirectEv) : List (HandlerRun ζ μ) × List DirectCallResponse × Option Fail :=
  match caller with
  | none => ([], [], some (.err .unauthenticated "no caller"))
  | some ip => match net.getPublicKey ip with
    | .error _ => ([], [], some (.err .unauthenticated "unknown caller"))
    | .ok pk => directLoop S H cod sk svcs handler pk evs

/-- rrpc/client.go:107-122: what the client sends for a packed request. -/
def directRequest (S : SigScheme) (H : HashFn) (cod : Codec) (sk : S.Sk) (serverID : Bytes) (r : Request ν ω) : Go DirectCallRequest :=
  match signSenderNote S H cod sk
      { senderID := S.pub sk, receiverID := serverID, senderMerkleProof := none, receiverMerkleProof := none, calluuid := r.uuid } with
  | .error e => .error e
  | .ok n => .ok { method := r.method, payload := r.marshaledArgs.getD [], note := some n }

/-- rrpc/client.go:155-174, the part of `VerifyAndDispatch` for the request the response belongs to: the request and the result given to the
caller. `ver` is what `Verify(serverID, receiverNote)` returns. -/
def directReply (K : ReqCodec ν ω) (ver : Go Unit) (r : Request ν ω) (msg : DirectCallResponse) : Request ν ω × Except CallErr Unit :=
  match ver with
  | .error e => (r, .error (.other e))
  | .ok () => match msg.result with
    | .rpcError s => (r, statusErr s)
    | .payload b =>
      let u := Request.unpack K { r with marshaledReply := some b }
      (u.1, liftGo u.2)
    | .unset => (r, .ok ())

end Resmix.Rrpc
