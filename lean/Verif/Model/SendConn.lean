import Verif.Model.Base
set_option autoImplicit false
/-
The sending half of the connections a coordinator keeps: to the relays (rrpc/net_conns.go:146-184: `sendRequest` and `parcelStream`, used by
rrpc/coordinator.go:168-182) and to the servers (rrpc/net_conns.go:253-258 and 292-320: `send` and the sending goroutine, used by
rrpc/coordinator.go:140-153, i.e. by rrpc/relay.go:141-146). Both are a channel of capacity 100 emptied by one goroutine.
-/
namespace Resmix.Rrpc.SendConn
variable {α : Type}

/-- rrpc/net_conns.go:72 and 286: the capacity of the channels. -/
def capacity : Nat := 100

/-- A connection: the items in its channel; whether its sending goroutine still runs; whether its stream is still open; whether its context was
cancelled (`Close`). `sent` is a ghost: the items given to `Send` successfully, in order. -/
structure Conn (α : Type) where
  queue : List α
  running : Bool
  alive : Bool
  cancelled : Bool
  sent : List α

/-- A new connection. -/
def Conn.new : Conn α := { queue := [], running := true, alive := true, cancelled := false, sent := [] }

/-- `users`: the goroutines that send, each with what it still has to send, in order, and over which connection. A robust call
(rrpc/coordinator.go:172-182) sends one request over the connection of every relay; the handler of a relay stream (rrpc/relay.go:122-164)
sends every request of its client over the connection of the server that is called. -/
structure State (α : Type) where
  conns : List (Conn α)
  users : List (List (Nat × α))

/-- `n` connections, nobody sends. -/
def init (n : Nat) : State α := { conns := List.replicate n Conn.new, users := [] }

/-- What may happen next. -/
inductive Ev (α : Type)
  | start (todo : List (Nat × α))   -- a goroutine begins to send
  | push (user : Nat)               -- rrpc/net_conns.go:151, 255: the channel takes the item
  | skip (user : Nat)               -- rrpc/net_conns.go:149-150, 256: the context is done
  | send (conn : Nat)               -- rrpc/net_conns.go:171-177, 308-314: the goroutine takes an item; `Send` succeeds, or returns io.EOF if the stream has ended
  | sendErr (conn : Nat)            -- rrpc/net_conns.go:179-181, 316-318: `Send` fails on the client's side, which aborts the stream
  | stop (conn : Nat)               -- rrpc/net_conns.go:165-170, 301-306: the goroutine finds the context done
  | ends (conn : Nat)               -- the other side or the network ends the stream
  | cancel (conn : Nat)             -- the connection or the coordinator is closed

/-- The next item of a user. -/
def State.next (s : State α) (u : Nat) : Option (Nat × α) := (s.users[u]?).bind List.head?

/-- One step; `none`: not possible now (in particular a send to a full channel waits). -/
def step (s : State α) (e : Ev α) : Option (State α) :=
  match e with
  | .start todo => some { s with users := s.users ++ [todo] }
  | .push u => match s.users[u]? with
    | some ((k, x) :: rest) => match s.conns[k]? with
      | some c =>
        if c.queue.length < capacity then
          some { conns := s.conns.set k { c with queue := c.queue ++ [x] }, users := s.users.set u rest }
        else none
      | none => none
    | _ => none
  | .skip u => match s.users[u]? with
    | some ((k, _) :: rest) => match s.conns[k]? with
      | some c => if c.cancelled then some { s with users := s.users.set u rest } else none
      | none => none
    | _ => none
  | .send k => match s.conns[k]? with
    | some c =>
      if c.running then
        match c.queue with
        | x :: q =>
          if c.alive then some { s with conns := s.conns.set k { c with queue := q, sent := c.sent ++ [x] } }
          else some { s with conns := s.conns.set k { c with queue := q, running := false } }
        | [] => none
      else none
    | none => none
  | .sendErr k => match s.conns[k]? with
    | some c =>
      if c.running ∧ c.alive then
        match c.queue with
        | _ :: q => some { s with conns := s.conns.set k { c with queue := q, alive := false } }
        | [] => none
      else none
    | none => none
  | .stop k => match s.conns[k]? with
    | some c => if c.cancelled then some { s with conns := s.conns.set k { c with running := false } } else none
    | none => none
  | .ends k => match s.conns[k]? with
    | some c => some { s with conns := s.conns.set k { c with alive := false } }
    | none => none
  | .cancel k => match s.conns[k]? with
    | some c => some { s with conns := s.conns.set k { c with cancelled := true, alive := false } }
    | none => none

/-- A sequence of steps. -/
def run (s : State α) : List (Ev α) → Option (State α)
  | [] => some s
  | e :: es => match step s e with
    | none => none
    | some s' => run s' es

/-- rrpc/coordinator.go:172-182: what a robust call sends: request `x i` to relay `i`. -/
def robustSends (n : Nat) (x : Nat → α) : List (Nat × α) := (List.range n).map fun i => (i, x i)

end Resmix.Rrpc.SendConn
