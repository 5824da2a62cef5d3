import Verif.Spec.Race
set_option autoImplicit false
/-
The memory accesses of a relay: rrpc/relay.go:18-41, 65-164, rrpc/coordinator.go:145-153, rrpc/net_conns.go:253-258, 292-341, rrpc/gc.go:16-33. What is computed is in
Model/Relay, the channels are in Model/SendConn and Model/Incoming; here are the goroutines, the objects they pass on, and what they read and write.
-/
namespace Resmix.Rrpc.RelayRace
open Resmix.Race

/-- Goroutines: of the stream of client `h`: the handler (rrpc/relay.go:122-163) and the one that sends responses (line 114); of the connection to server `i`: the one that sends
parcels (rrpc/net_conns.go:292) and the one that receives responses (line 322); the relay's own two (rrpc/relay.go:68, 95). -/
inductive Gor
  | handler (h : Nat)
  | responder (h : Nat)
  | sender (i : Nat)
  | receiver (i : Nat)
  | incoming
  | cleanup
deriving DecidableEq

/-- Memory: a relay request with its parcel; a response of a server; a response to a client, without the server's response it points to. -/
inductive Loc
  | rqst (p : Nat)
  | resp (m : Nat)
  | out (q : Nat)
deriving DecidableEq

/-- Synchronisation objects: the parcel as a message on `toSend` (rrpc/net_conns.go:255); the entry of request `p` in `uuidToPeer`, which holds a relaytask by value
(rrpc/relay.go:158); a server's response as a message on `outputChan` (rrpc/net_conns.go:339); a message on the channel of a stream's responses (rrpc/relay.go:87, 133, 150). -/
inductive Obj
  | toSend (p : Nat)
  | entry (p : Nat)
  | output (m : Nat)
  | back (q : Nat)
deriving DecidableEq

abbrev Entry := Event Gor Loc Obj

/-- A response to a client: whether it is on the channel; the stream; the server's response it points to. -/
structure Out where
  waiting : Bool
  client : Nat
  inner : Option Nat

/-- The relay: the requests received so far, with their streams; the parcels on the channels of connections; the requests stored so far; the servers' responses so far: whether
they are on the channel; the responses to clients so far; the accesses so far. -/
structure State where
  rqsts : List Nat
  queue : List (Nat × Nat)
  entries : List Nat
  resps : List Bool
  outs : List Out
  trace : List Entry

def State.init : State := ⟨[], [], [], [], [], []⟩

/-- One step of a relay. Handlers are not bound to do one thing after the other, entries can be found any number of times and by any response, channels are not bounded: this can
only add executions. -/
inductive Step : State → State → Prop
  /-- rrpc/relay.go:123: a request is decoded. -/
  | recv (s : State) (h : Nat) :
      Step s { s with rqsts := s.rqsts ++ [h], trace := s.trace ++ [⟨.handler h, .write (.rqst s.rqsts.length)⟩] }
  /-- rrpc/relay.go:141-146, rrpc/net_conns.go:255: its parcel is passed to the connection to server `i`. -/
  | send (s : State) (p h i : Nat) : s.rqsts[p]? = some h →
      Step s { s with queue := s.queue ++ [(p, i)], trace := s.trace ++ [⟨.handler h, .read (.rqst p)⟩, ⟨.handler h, .release (.toSend p)⟩] }
  /-- rrpc/relay.go:158-162: the call id is read from the parcel, which has already been passed on. -/
  | store (s : State) (p h : Nat) : s.rqsts[p]? = some h →
      Step s { s with entries := s.entries ++ [p], trace := s.trace ++ [⟨.handler h, .read (.rqst p)⟩, ⟨.handler h, .release (.entry p)⟩] }
  /-- rrpc/relay.go:132-137, 148-155: an error is reported. -/
  | fail (s : State) (p h : Nat) : s.rqsts[p]? = some h →
      Step s { s with outs := s.outs ++ [⟨true, h, none⟩],
                      trace := s.trace ++ [⟨.handler h, .read (.rqst p)⟩, ⟨.handler h, .write (.out s.outs.length)⟩, ⟨.handler h, .release (.back s.outs.length)⟩] }
  /-- rrpc/net_conns.go:308-311: the parcel is encoded. -/
  | transmit (s : State) (p i : Nat) (l₁ l₂ : List (Nat × Nat)) : s.queue = l₁ ++ (p, i) :: l₂ →
      Step s { s with queue := l₁ ++ l₂, trace := s.trace ++ [⟨.sender i, .acquire (.toSend p)⟩, ⟨.sender i, .read (.rqst p)⟩] }
  /-- rrpc/net_conns.go:328-339: a response of server `i` is decoded and passed on. -/
  | receive (s : State) (i : Nat) :
      Step s { s with resps := s.resps ++ [true], trace := s.trace ++ [⟨.receiver i, .write (.resp s.resps.length)⟩, ⟨.receiver i, .release (.output s.resps.length)⟩] }
  /-- rrpc/relay.go:77-85: no entry has its call id. -/
  | discard (s : State) (m : Nat) : s.resps[m]? = some true →
      Step s { s with resps := s.resps.set m false, trace := s.trace ++ [⟨.incoming, .acquire (.output m)⟩, ⟨.incoming, .read (.resp m)⟩] }
  /-- rrpc/relay.go:77-90: it is passed to the stream of the entry. -/
  | forward (s : State) (m p h : Nat) : s.resps[m]? = some true → p ∈ s.entries → s.rqsts[p]? = some h →
      Step s { s with resps := s.resps.set m false, outs := s.outs ++ [⟨true, h, some m⟩],
                      trace := s.trace ++ [⟨.incoming, .acquire (.output m)⟩, ⟨.incoming, .read (.resp m)⟩, ⟨.incoming, .acquire (.entry p)⟩, ⟨.incoming, .write (.out s.outs.length)⟩,
                        ⟨.incoming, .release (.back s.outs.length)⟩] }
  /-- rrpc/gc.go:16-20: the cleanup finds an entry and deletes it, whatever its age: a relaytask has its methods on the pointer (rrpc/relay.go:24, 28), so the value in the map is not
GCable. -/
  | clean (s : State) (p : Nat) : p ∈ s.entries →
      Step s { s with trace := s.trace ++ [⟨.cleanup, .acquire (.entry p)⟩] }
  /-- rrpc/relay.go:115-116: a response is encoded, with the server's response in it. -/
  | respond (s : State) (q : Nat) (o : Out) : s.outs[q]? = some o → o.waiting = true →
      Step s { s with outs := s.outs.set q { o with waiting := false },
                      trace := s.trace ++ ([⟨.responder o.client, .acquire (.back q)⟩, ⟨.responder o.client, .read (.out q)⟩] ++
                        (o.inner.toList.map fun m => ⟨.responder o.client, .read (.resp m)⟩)) }

inductive Reach : State → Prop
  | init : Reach .init
  | step (s s' : State) : Reach s → Step s s' → Reach s'

end Resmix.Rrpc.RelayRace
