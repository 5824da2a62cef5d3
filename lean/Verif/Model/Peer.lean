import Verif.Model.Streams
import Verif.Model.Network
set_option autoImplicit false
/-
Who a stream belongs to: rrpc/peer.go, and its use at rrpc/rrpc_server_stream.go:42-63, rrpc/relay.go:102-112, rrpc/server.go:103-112.
-/
namespace Resmix.Rrpc.Peer
open Resmix.Rrpc

/-- gRPC metadata as a server sees it: `none` - the context has none; otherwise for every key its values, in the order in which the client added them. -/
abbrev Metadata := Option (GoMap Str (List Str))

/-- The key "caller" (rrpc/peer.go:17, 26). -/
def callerKey : Str := [99, 97, 108, 108, 101, 114]

/-- rrpc/peer.go:11-23 `getPeerFromContext`. -/
def getPeerFromContext (md : Metadata) : Go Str :=
  match md with
  | none => .error (.err .invalidArgument "Missing caller identity")
  | some m => match m.lookup callerKey with
    | none => .error (.err .invalidArgument "Missing caller identity")
    | some ids => match ids with
      | [] => .error .panic                          -- index out of range; gRPC has no keys without values
      | x :: _ => .ok x

/-- rrpc/peer.go:25-27 `addIPToContext`, as the server sees its effect (`metadata.AppendToOutgoingContext`). -/
def addIPToContext (md : Metadata) (addr : Str) : Metadata :=
  let m := md.getD []
  some (m.insert callerKey ((m.lookup callerKey).getD [] ++ [addr]))

/-- rrpc/rrpc_server_stream.go:43-53: the index under which a stream with this metadata is served, or the error it is refused with. -/
def callStreamIndex (net : Network) (md : Metadata) : Go Nat :=
  match getPeerFromContext md with
  | .error .panic => .error .panic
  | .error _ => .error (.err .unauthenticated "server::callStream: cannot get peer from context")
  | .ok ip => match net.getPublicKey ip with
    | .error _ => .error (.err .unauthenticated "server::callStream: unknown caller")
    | .ok _ => .ok (net.getRelayIndex ip)

variable {α : Type}

/-- The response channels of a server, with ghosts: which process (by address) really opened stream `k`, and what it received on its streams. -/
structure State (α : Type) where
  back : Streams.State α
  owners : List Str
  received : List (Str × Nat × α)

/-- What may happen: a process opens a stream with some metadata, or anything else of Model/Streams. -/
inductive Ev (α : Type)
  | openStream (who : Str) (md : Metadata)
  | other (e : Streams.Ev α)

/-- A new server in the network. -/
def init (net : Network) : State α := { back := Streams.init net.serverAddresses.length, owners := [], received := [] }

/-- One step; `none`: not possible now. -/
def step (net : Network) (s : State α) : Ev α → Option (State α)
  | .openStream who md => match callStreamIndex net md with
    | .ok r => (Streams.step s.back (.connect r)).map fun b => { s with back := b, owners := s.owners ++ [who] }
    | .error .panic => some { s with back := { s.back with crashed := true } }
    | .error _ => some s
  | .other (.connect _) => none
  | .other e => (Streams.step s.back e).map fun b =>
      { s with back := b
               received := s.received ++ (match e with
                 | .deliver k => (b.sent.drop s.back.sent.length).map fun m => (s.owners.getD k [], m.1, m.2)
                 | _ => []) }

/-- A sequence of steps. -/
def run (net : Network) (s : State α) : List (Ev α) → Option (State α)
  | [] => some s
  | e :: es => match step net s e with
    | none => none
    | some s' => run net s' es

end Resmix.Rrpc.Peer
