import Verif.Model.Parcel
import Verif.Model.GoMap
import Verif.Model.Sign
set_option autoImplicit false
/-
The server side of robust calls: rrpc/rrpc_server_stream.go:108-304. The collector is one goroutine; it is a function from the events it
selects to the tasks it starts.
-/
namespace Resmix.Rrpc
open Resmix.Ecc

/-- rrpc/rrpc_server_stream.go:108-114 `rrpcTask`; `μ` are the method descriptors. Times are in nanoseconds of the monotonic clock. -/
structure CTask (μ : Type) where
  parcels : List Parcel
  savedNote : ExchangeNote
  startTime : Nat
  method : μ

/-- What the collector selects (rrpc/rrpc_server_stream.go:129-140): a parcel that passed `validateParcel`, at time `now`, or a tick. -/
inductive CEv
  | parcel (now : Nat) (p : Parcel)
  | tick (now : Nat)

/-- What the collector does: an error response (without note) to a relay (lines 143-149), or a goroutine for a task (line 159). -/
inductive COut (μ : Type)
  | refuse (relay : Int) (e : Fail)
  | run (t : CTask μ)

variable {μ : Type}

/-- rrpc/rrpc_server_stream.go:182-202 `getOrCreateTask`; `lookup` is `getServiceAndMethodDesc` (Model/Services). -/
def getOrCreateTask (lookup : Str → Go μ) (tasks : GoMap Str (CTask μ)) (now : Nat) (p : Parcel) : Go (CTask μ × GoMap Str (CTask μ)) :=
  match lookup p.method with
  | .error e => .error e
  | .ok m => match tasks.lookup p.note.calluuid with
    | some v => .ok (v, tasks)
    | none =>
      let v : CTask μ := { parcels := [], savedNote := p.note, startTime := now, method := m }
      .ok (v, tasks.insert p.note.calluuid v)

/-- rrpc/rrpc_server_stream.go:128-179: one iteration of the collector's loop. `tasks` holds pointers: appending the parcel (line 151)
updates the entry of the map. -/
def collectorStep (minParcels : Int) (ttl : Nat) (lookup : Str → Go μ) (tasks : GoMap Str (CTask μ)) : CEv → GoMap Str (CTask μ) × List (COut μ)
  | .tick now => (tasks.filter fun e => decide (now - e.2.startTime ≤ ttl), [])
  | .parcel now p => match getOrCreateTask lookup tasks now p with
    | .error e => (tasks, [.refuse p.relayIndex e])
    | .ok (v, tasks') =>
      let v' : CTask μ := { v with parcels := v.parcels ++ [p] }
      if (v'.parcels.length : Int) < minParcels then (tasks'.insert p.note.calluuid v', [])
      else (tasks'.erase v'.savedNote.calluuid, [.run v'])

/-- The collector on a sequence of events. -/
def collectorRun (minParcels : Int) (ttl : Nat) (lookup : Str → Go μ) : GoMap Str (CTask μ) → List CEv → GoMap Str (CTask μ) × List (COut μ)
  | tasks, [] => (tasks, [])
  | tasks, e :: evs =>
    let r := collectorStep minParcels ttl lookup tasks e
    let r' := collectorRun minParcels ttl lookup r.1 evs
    (r'.1, r.2 ++ r'.2)

/-- The collector of a server: rrpc/rrpc_server_stream.go:118-180, ttl = 5s (line 123), no tasks at first (line 126). -/
def collector (net : Network) (lookup : Str → Go μ) (evs : List CEv) : List (COut μ) :=
  (collectorRun net.minimalRelayedParcels 5000000000 lookup [] evs).2

/-- An error returned by a service handler: one with a gRPC status, or any other error with its text. -/
inductive SvcErr
  | status (s : RpcStatus)
  | plain (msg : Str)
deriving DecidableEq

/-- google.golang.org/grpc/codes: the numeric codes. -/
def Code.toNat : Code → Nat
  | .ok => 0 | .canceled => 1 | .unknown => 2 | .invalidArgument => 3 | .notFound => 5
  | .failedPrecondition => 9 | .internal => 13 | .unauthenticated => 16 | .other n => n

/-- rrpc/server.go:182-189 `errToRpcErr`, also rrpc/rrpc_server_stream.go:282-286: the status of an error, code Unknown for a plain one. -/
def errToRpcErr : SvcErr → RpcStatus
  | .status s => s
  | .plain msg => { code := 2, message := msg }

/-- A response before signing, and whether all responses of the call point to the same note (then signing one changes all). -/
abbrev Responses := List CallStreamResponse × Bool

/-- rrpc/rrpc_server_stream.go:281-304 `erroToCallStreamResponseArray`: one error response per server, each with its own note. -/
def errorResponses (net : Network) (key : Bytes) (note : ExchangeNote) (s : RpcStatus) : Responses :=
  ((List.range net.serverAddresses.length).map fun _ =>
    { response := none, rpcError := some s, publicKey := key, note := some { note with receiverMerkleProof := none } }, false)

/-- rrpc/rrpc_server_stream.go:263-276: one response per server, all with the saved note. -/
def replyResponses (key : Bytes) (note : ExchangeNote) (parts : List RrpcResponse) : Responses :=
  (parts.map fun p => { response := some p, rpcError := none, publicKey := key, note := some note }, true)

/-- rrpc/rrpc_server_stream.go:204-222 `runTask`: `res` is a possible result. `handler` is what the method's handler does for the call id
and the reconstructed arguments: an error, or a value given by the bytes the codec writes for it. `buf` are the bytes already in the
buffer taken from the pool (line 248; Model/Pool). -/
def RunTask (C : RS) (stopped : Bool) (net : Network) (key : Bytes) (handler : μ → Str → Bytes → Except SvcErr Bytes) (buf : Bytes) (v : CTask μ)
    (res : Go Responses) : Prop :=
  ∃ pl, ReconstructParcels C stopped v.parcels pl ∧ match pl with
    | .error (.err c msg) => res = .ok (errorResponses net key v.savedNote { code := Code.toNat c, message := msg.toUTF8.toList })
    | .error e => res = .error e
    | .ok payload => match handler v.method v.savedNote.calluuid payload with
      | .error e => res = .ok (errorResponses net key v.savedNote (errToRpcErr e))
      | .ok bytes => ∃ parts, ReplyParts C stopped net (buf ++ bytes) parts ∧ match parts with
        | .error (.err c msg) => res = .ok (errorResponses net key v.savedNote { code := Code.toNat c, message := msg.toUTF8.toList })
        | .error e => res = .error e
        | .ok ps => res = .ok (replyResponses key v.savedNote ps)

/-- rrpc/rrpc_server_stream.go:161-171: the responses after signing. (There is no coordinator for an empty network, so the case of no
responses does not occur.) -/
def signOutput (S : SigScheme) (H : Merkle.HashFn) (cod : Codec) (sk : S.Sk) (saved : ExchangeNote) : Responses → Go (List CallStreamResponse)
  | ([], _) => .error .panic
  | (r0 :: rest, shared) => match signResponses S H cod sk shared (r0 :: rest).length (r0.note.getD saved) with
    | .error e => .error e
    | .ok notes => .ok (List.zipWith (fun r n => { r with note := some n }) (r0 :: rest) notes)

/-- rrpc/rrpc_server_stream.go:159-175: the responses a task sends, position `i` to relay `i`. -/
def TaskOutput (S : SigScheme) (H : Merkle.HashFn) (cod : Codec) (sk : S.Sk) (C : RS) (stopped : Bool) (net : Network)
    (handler : μ → Str → Bytes → Except SvcErr Bytes) (buf : Bytes) (v : CTask μ) (res : Go (List CallStreamResponse)) : Prop :=
  ∃ r, RunTask C stopped net (S.pub sk) handler buf v r ∧ res = match r with
    | .error e => .error e
    | .ok rs => signOutput S H cod sk v.savedNote rs

end Resmix.Rrpc
