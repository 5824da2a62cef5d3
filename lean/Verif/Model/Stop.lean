import Verif.Model.Streams
import Verif.Model.Relay
set_option autoImplicit false
/-
Stopping a server: rrpc/server.go:47-94 with the goroutines counted by its WaitGroup: the collector (rrpc/rrpc_server_stream.go:118-180), the
goroutine that routes responses (rrpc/relay.go:68-93) and the cleanup (rrpc/relay.go:95-99, rrpc/gc.go:34-44). Simplified: what a parcel does to the
collector's map is a choice (it is in Model/Collector); the router also ends when the coordinator is closed, which is left out; the calls of
`AsyncSend` of a relay stream that wait for room are left out (Model/SendConn).
-/
namespace Resmix.Rrpc.Stop
variable {α : Type}

/-- Where the collector is: at its select, sending the refusal of a parcel (rrpc_server_stream.go:144-146; the number is that of the send in
`Streams.State.procs`), or ended. -/
inductive Coll
  | waiting
  | sending (p : Nat)
  | ended
deriving DecidableEq

/-- A server. `handlers`: reply goroutines (rrpc_server_stream.go:159-176) that have not begun to send. `stopped`: `gsrvr.Stop()` was called (line 48);
`cancelled`: the context was cancelled (line 49); `returned`: `Stop` has returned. -/
structure State (α : Type) where
  back : Streams.State α
  relay : Relay.State
  collector : Coll
  router : Bool
  cleaner : Bool
  handlers : Nat
  stopped : Bool
  cancelled : Bool
  returned : Bool

/-- rrpc/server.go:57-94 `newServerService` in a network of `n` servers. -/
def init (n : Nat) : State α :=
  { back := Streams.init n, relay := Relay.init, collector := .waiting, router := true, cleaner := true, handlers := 0, stopped := false, cancelled := false, returned := false }

/-- What the collector does with a parcel (rrpc_server_stream.go:140-176): keep it, refuse it, or start the call. -/
inductive Task (α : Type)
  | keep
  | refuse (relay : Nat) (x : α)
  | start

/-- What may happen next. -/
inductive Ev (α : Type)
  | back (e : Streams.Ev α)     -- streams of relays, their sender goroutines, reply goroutines
  | relay (e : Relay.Ev)        -- streams of clients, the routing of responses, the cleanup
  | tick                        -- the collector's ticker (line 130)
  | collect (t : Task α)        -- the collector receives a parcel (line 140)
  | resume                      -- the collector has sent its refusal
  | reply (sends : List (Nat × α))  -- a handler has returned; its reply goroutine begins to send (lines 160-173)
  | collectorEnds               -- line 137
  | routerEnds                  -- rrpc/relay.go:74
  | cleanerEnds                 -- rrpc/gc.go:40
  | stopGrpc                    -- rrpc/server.go:48: connections are closed, handlers are not waited for
  | cancel                      -- rrpc/server.go:49
  | returns                     -- rrpc/server.go:50

/-- A panic has ended the process. -/
def State.crashed (s : State α) : Bool := s.back.crashed || s.relay.crashed

/-- rrpc/server.go:48: every `Send` on the streams of relays fails from now on. -/
def breakAll (b : Streams.State α) : Streams.State α := { b with senders := b.senders.map fun g => { g with broken := true } }

/-- May this event of the relay part happen now? New streams are not accepted and nothing is sent on streams after `gsrvr.Stop()`; the router and the
cleanup act only while they run. -/
def relayAllowed (s : State α) : Relay.Ev → Bool
  | .connect => !s.stopped
  | .send _ => !s.stopped
  | .incoming _ => s.router
  | .route => s.router
  | .clean _ => s.cleaner
  | _ => true

/-- May this event of the streams of relays happen now? `start` is the refusal of a parcel by a stream handler (rrpc_server_stream.go:76-79). -/
def backAllowed (s : State α) : Streams.Ev α → Bool
  | .connect _ => !s.stopped
  | .start sends => sends.length == 1
  | _ => true

/-- One step; `none`: not possible now. -/
def step (s : State α) (e : Ev α) : Option (State α) :=
  if s.crashed then none else
  match e with
  | .back e => if backAllowed s e then (Streams.step s.back e).map fun b => { s with back := b } else none
  | .relay e => if relayAllowed s e then (Relay.step s.relay e).map fun r => { s with relay := r } else none
  | .tick => if s.collector = .waiting then some s else none
  | .collect .keep => if s.collector = .waiting then some s else none
  | .collect (.refuse r x) =>
    if s.collector = .waiting then some { s with back := { s.back with procs := s.back.procs ++ [[(r, x)]] }, collector := .sending s.back.procs.length } else none
  | .collect .start => if s.collector = .waiting then some { s with handlers := s.handlers + 1 } else none
  | .resume => match s.collector with
    | .sending p => match s.back.procs[p]? with
      | some [] => some { s with collector := .waiting }
      | _ => none
    | _ => none
  | .reply sends => if 0 < s.handlers then some { s with handlers := s.handlers - 1, back := { s.back with procs := s.back.procs ++ [sends] } } else none
  | .collectorEnds => if s.cancelled ∧ s.collector = .waiting then some { s with collector := .ended } else none
  | .routerEnds => if s.cancelled ∧ s.router ∧ s.relay.routing = none then some { s with router := false } else none
  | .cleanerEnds => if s.cancelled ∧ s.cleaner then some { s with cleaner := false } else none
  | .stopGrpc => some { s with stopped := true, back := breakAll s.back }
  | .cancel => if s.stopped then some { s with cancelled := true } else none
  | .returns => if s.cancelled ∧ s.collector = .ended ∧ s.router = false ∧ s.cleaner = false then some { s with returned := true } else none

/-- A sequence of steps. -/
def run (s : State α) : List (Ev α) → Option (State α)
  | [] => some s
  | e :: es => match step s e with
    | none => none
    | some s' => run s' es

end Resmix.Rrpc.Stop
