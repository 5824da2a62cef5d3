import Verif.Model.Robust
import Verif.Model.GoMap
set_option autoImplicit false
/-
A client's connections to the relays while robust calls run: rrpc/coordinator.go:163-216 (only its channel and its sends), 234-238, rrpc/net_conns.go:34-49, 142-155, 186-215 and
rrpc/gc.go. Not modelled: the sending goroutines and proofs.
-/
namespace Resmix.Rrpc.RelayConn

/-- Where the cleanup goroutine of a connection is: between two entries; about to send the time-out of an entry (`PrepareForDeletion`,
rrpc/net_conns.go:44-49); about to delete it (rrpc/gc.go:28). The start time of every entry is the zero time (rrpc/coordinator.go:178-181), so no entry is spared. -/
inductive Cleaner
  | idle
  | notifying (uuid : Str) (call : Nat)
  | deleting (uuid : Str)
deriving DecidableEq

/-- A connection: `liveTasks` (call numbers stand for the response channels), the response its receiving goroutine is about to hand over (line 213), and
its cleanup goroutine. -/
structure Conn where
  live : GoMap Str Nat
  recv : Option (Nat × RelayStreamResponse)
  cleaner : Cleaner

/-- A call of `RobustRequest`: its call id, its response channel (capacity: the number of requests, which is the number of relays; line 169), how many requests were
sent (lines 172-182), whether its receive loop still runs (lines 189-215), and, a ghost, what that loop has taken. -/
structure Call where
  uuid : Str
  queue : List RelayStreamResponse
  asked : Nat
  reading : Bool
  taken : List RelayStreamResponse

/-- The connections, one per relay, and the calls. -/
structure State where
  conns : List Conn
  calls : List Call

/-- A client connected to `n` relays. -/
def init (n : Nat) : State := { conns := List.replicate n ⟨[], none, .idle⟩, calls := [] }

/-- What may happen next. -/
inductive Ev
  | call (uuid : Str)                              -- rrpc/coordinator.go:168-170
  | ask (i : Nat)                                  -- call `i` sends its next request: rrpc/net_conns.go:147
  | answer (r : Nat) (x : RelayStreamResponse)     -- connection `r` receives an answer: lines 193-211
  | hand (r : Nat)                                 -- line 213
  | take (i : Nat)                                 -- rrpc/coordinator.go:195
  | return (i : Nat)                               -- `RobustRequest` returns
  | look (r : Nat) (uuid : Str)                    -- the cleanup of connection `r` comes to an entry
  | notify (r : Nat)                               -- rrpc/net_conns.go:45
  | delete (r : Nat)                               -- rrpc/gc.go:28
  | cancel (r : Nat) (uuid : Str)                  -- rrpc/net_conns.go:142-144: `CancelRequest` comes to connection `r`

/-- The time-out a cleanup sends (rrpc/net_conns.go:45-48); the text is "response timed out". -/
def timeout (uuid : Str) : RelayStreamResponse := { relayStreamError := some { code := 1, message := "response timed out".toUTF8.toList }, response := none, uuid := uuid }

/-- Send `x` to the response channel of call `i`, if it has room for it (`n` is the number of relays). -/
def put (n : Nat) (calls : List Call) (i : Nat) (x : RelayStreamResponse) : Option (List Call) :=
  match calls[i]? with
  | none => none
  | some c => if c.queue.length < n then some (calls.set i { c with queue := c.queue ++ [x] }) else none

/-- One step; `none`: not possible now. -/
def step (s : State) : Ev → Option State
  | .call u => some { s with calls := s.calls ++ [⟨u, [], 0, true, []⟩] }
  | .ask i => match s.calls[i]? with
    | none => none
    | some c => match s.conns[c.asked]? with
      | none => none
      | some k => some { conns := s.conns.set c.asked { k with live := k.live.insert c.uuid i }, calls := s.calls.set i { c with asked := c.asked + 1 } }
  | .answer r x => match s.conns[r]? with
    | none => none
    | some k => match k.recv with
      | some _ => none
      | none => match k.live.lookup x.uuid with
        | none => some s
        | some i => some { s with conns := s.conns.set r { k with live := k.live.erase x.uuid, recv := some (i, x) } }
  | .hand r => match s.conns[r]? with
    | none => none
    | some k => match k.recv with
      | none => none
      | some (i, x) => match put s.conns.length s.calls i x with
        | none => none
        | some cs => some { conns := s.conns.set r { k with recv := none }, calls := cs }
  | .take i => match s.calls[i]? with
    | none => none
    | some c => match c.queue with
      | [] => none
      | x :: q => if c.reading then some { s with calls := s.calls.set i { c with queue := q, taken := c.taken ++ [x] } } else none
  | .return i => match s.calls[i]? with
    | none => none
    | some c => some { s with calls := s.calls.set i { c with reading := false } }
  | .look r u => match s.conns[r]? with
    | none => none
    | some k => match k.cleaner, k.live.lookup u with
      | .idle, some i => some { s with conns := s.conns.set r { k with cleaner := .notifying u i } }
      | _, _ => none
  | .notify r => match s.conns[r]? with
    | none => none
    | some k => match k.cleaner with
      | .notifying u i => match put s.conns.length s.calls i (timeout u) with
        | none => none
        | some cs => some { conns := s.conns.set r { k with cleaner := .deleting u }, calls := cs }
      | _ => none
  | .delete r => match s.conns[r]? with
    | none => none
    | some k => match k.cleaner with
      | .deleting u => some { s with conns := s.conns.set r { k with live := k.live.erase u, cleaner := .idle } }
      | _ => none
  | .cancel r u => match s.conns[r]? with
    | none => none
    | some k => some { s with conns := s.conns.set r { k with live := k.live.erase u } }

/-- A sequence of steps. -/
def run (s : State) : List Ev → Option State
  | [] => some s
  | e :: es => match step s e with
    | none => none
    | some s' => run s' es

/-- rrpc/coordinator.go:234-238 `CancelRequest`: what it does, at the connections in some order (the map is ranged over). -/
def cancelRequest (order : List Nat) (uuid : Str) : List Ev := order.map fun r => .cancel r uuid

end Resmix.Rrpc.RelayConn
