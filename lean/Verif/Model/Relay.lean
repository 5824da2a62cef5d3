import Verif.Model.Robust
import Verif.Model.Verifier
set_option autoImplicit false
/-
A relay and its goroutines: rrpc/relay.go:65-164 with rrpc/gc.go. Not modelled: the streams for proofs; requests without parcel or note.
-/
namespace Resmix.Rrpc.Relay

/-- rrpc/relay.go:113: the capacity of the response channel of a stream. -/
def capacity : Nat := 100

/-- The stream of a client: its response channel; whether the goroutine at lines 114-120 runs; what was given to `Send` successfully (a ghost); and the
request that was given to `AsyncSend` but is not stored yet (lines 141-158). -/
structure Stream where
  queue : List RelayStreamResponse
  alive : Bool
  delivered : List RelayStreamResponse
  forwarding : Option Str

/-- The relay: the streams of its clients, `uuidToPeer` (stream numbers stand for the response channels), the response the goroutine at lines 68-93 is
about to pass on (line 87), and whether a panic has ended the process. -/
structure State where
  streams : List Stream
  pending : GoMap Str Nat
  routing : Option (Nat × RelayStreamResponse)
  crashed : Bool

/-- A new relay. -/
def init : State := { streams := [], pending := [], routing := none, crashed := false }

/-- What may happen next. -/
inductive Ev
  | connect                                         -- a client opens a stream (lines 102-120)
  | forward (stream : Nat) (uuid : Str)             -- lines 123-146: a request is received, `AsyncSend` succeeds
  | store (stream : Nat)                            -- line 158
  | refuse (stream : Nat) (uuid : Str) (e : RpcStatus)  -- lines 148-155: `AsyncSend` fails
  | incoming (c : CallStreamResponse)               -- lines 77-85: a response of a server is received
  | route                                           -- line 87
  | send (stream : Nat)                             -- lines 115-116: a response is sent to the client
  | sendFails (stream : Nat)                        -- lines 116-118
  | clean (uuid : Str)                              -- rrpc/gc.go:17-21: the cleanup removes an entry, whatever its age (a relaytask is not GCable)

/-- Apply `f` to stream `j`. -/
def State.update (s : State) (j : Nat) (f : Stream → Option Stream) : Option State :=
  match s.streams[j]? with
  | none => none
  | some t => match f t with
    | none => none
    | some t' => some { s with streams := s.streams.set j t' }

/-- One step; `none`: not possible now. -/
def step (s : State) (e : Ev) : Option State :=
  if s.crashed then none else
  match e with
  | .connect => some { s with streams := s.streams ++ [⟨[], true, [], none⟩] }
  | .forward j u => s.update j fun t => if t.forwarding.isNone then some { t with forwarding := some u } else none
  | .store j => match s.streams[j]? with
    | none => none
    | some t => match t.forwarding with
      | none => none
      | some u => some { s with streams := s.streams.set j { t with forwarding := none }, pending := s.pending.insert u j }
  | .refuse j u e => s.update j fun t =>
      if t.forwarding.isNone ∧ t.queue.length < capacity then
        some { t with queue := t.queue ++ [{ relayStreamError := some e, response := none, uuid := u }] }
      else none
  | .incoming c => match s.routing with
    | some _ => none
    | none => match c.note with
      | none => some { s with crashed := true }                  -- nil pointer (line 82)
      | some n => match s.pending.lookup n.calluuid with
        | none => some s
        | some j => some { s with pending := s.pending.erase n.calluuid
                                  routing := some (j, { relayStreamError := none, response := some c, uuid := n.calluuid }) }
  | .route => match s.routing with
    | none => none
    | some (j, r) => match s.streams[j]? with
      | none => none
      | some t => if t.queue.length < capacity then some { s with streams := s.streams.set j { t with queue := t.queue ++ [r] }, routing := none } else none
  | .send j => s.update j fun t => match t.queue with
    | r :: q => if t.alive then some { t with queue := q, delivered := t.delivered ++ [r] } else none
    | [] => none
  | .sendFails j => s.update j fun t => match t.queue with
    | _ :: q => if t.alive then some { t with queue := q, alive := false } else none
    | [] => none
  | .clean u => some { s with pending := s.pending.erase u }

/-- A sequence of steps. -/
def run (s : State) : List Ev → Option State
  | [] => some s
  | e :: es => match step s e with
    | none => none
    | some s' => run s' es

/-- rrpc/rrpc_server_stream.go:75-81 (and 143-147): what a server answers to the relay for a parcel it refuses. -/
def refusal (text : Str) : CallStreamResponse :=
  { response := none, rpcError := some { code := 3, message := text }, publicKey := [], note := none }

/-- What the handler of a stream does with a parcel. -/
inductive Reaction
  | accept
  | answer (c : CallStreamResponse)
  | crash

/-- rrpc/rrpc_server_stream.go:75-88: one parcel from relay `index`; `text` is `"server:"+err.Error()`. -/
def onParcel (S : SigScheme) (H : Merkle.HashFn) (cod : Codec) (cache : Cache) (tick : Bool) (text : Fail → Str) (index : Nat) (p : Parcel) : Reaction :=
  match (validateParcel S H cod cache tick index p).1 with
  | .ok () => .accept
  | .error (.err k m) => .answer (refusal (text (.err k m)))
  | .error _ => .crash

end Resmix.Rrpc.Relay
