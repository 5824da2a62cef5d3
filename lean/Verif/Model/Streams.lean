import Verif.Model.Base
set_option autoImplicit false
/-
The response channels of a server and the goroutines around them: rrpc/rrpc_server_stream.go:14-63, 76-79, 144-146, 173-175.
-/
namespace Resmix.Rrpc.Streams
variable {α : Type}

/-- rrpc/rrpc_server_stream.go:21: the capacity of every response channel. -/
def capacity : Nat := 100

/-- A channel: what it holds, and whether it was closed. -/
structure Chan (α : Type) where
  queue : List α
  closed : Bool

/-- A sender goroutine (lines 56-63) of a stream of relay `relay`. `broken`: every further `Send` on the stream fails. `done`: it has returned. -/
structure Sender where
  relay : Nat
  broken : Bool
  done : Bool
deriving DecidableEq

/-- `procs`: the sends still to be made by every goroutine that uses `sendTo`, in order: a reply goroutine (lines 173-175) has one for every
relay, a stream handler (lines 76-79) and the collector (lines 144-146) one at a time. `sent` is a ghost: what was given to `Send`
successfully, with the relay, in order. `crashed`: a panic, which ends the process. -/
structure State (α : Type) where
  chans : List (Chan α)
  senders : List Sender
  procs : List (List (Nat × α))
  sent : List (Nat × α)
  crashed : Bool

/-- lines 18-27 `newStreams`. -/
def init (n : Nat) : State α := { chans := List.replicate n { queue := [], closed := false }, senders := [], procs := [], sent := [], crashed := false }

/-- What may happen next. -/
inductive Ev (α : Type)
  | connect (relay : Nat)            -- a relay opens a stream (lines 42-63)
  | breaks (sender : Nat)            -- a stream fails or ends; its handler returns, its sender goroutine stays
  | start (sends : List (Nat × α))   -- a goroutine begins to use `sendTo`
  | send (proc : Nat)                -- it makes its next send
  | deliver (sender : Nat)           -- a sender goroutine takes a response and calls `Send`
  | finish (sender : Nat)            -- a sender goroutine finds its channel closed and empty

/-- One step; `none`: not possible now (in particular a send to a full channel waits). Nothing happens after a crash. -/
def step (s : State α) (e : Ev α) : Option (State α) :=
  if s.crashed then none else
  match e with
  | .connect r => if r < s.chans.length then some { s with senders := s.senders ++ [⟨r, false, false⟩] } else none
  | .breaks j => match s.senders[j]? with
    | none => none
    | some g => some { s with senders := s.senders.set j { g with broken := true } }
  | .start sends => some { s with procs := s.procs ++ [sends] }
  | .send p => match s.procs[p]? with
    | some ((r, x) :: rest) => match s.chans[r]? with
      | none => some { s with crashed := true }                                    -- index out of range (line 30)
      | some c =>
        if c.closed then some { s with crashed := true }                            -- send on closed channel (line 30)
        else if c.queue.length < capacity then
          some { s with chans := s.chans.set r { c with queue := c.queue ++ [x] }, procs := s.procs.set p rest }
        else none
    | _ => none
  | .deliver j => match s.senders[j]? with
    | none => none
    | some g => if g.done then none else match s.chans[g.relay]? with
      | none => none
      | some c => match c.queue with
        | [] => none
        | x :: q =>
          if g.broken then
            if c.closed then some { s with crashed := true }                        -- close of closed channel (line 38)
            else some { s with chans := s.chans.set g.relay { queue := q, closed := true }, senders := s.senders.set j { g with done := true } }
          else some { s with chans := s.chans.set g.relay { c with queue := q }, sent := s.sent ++ [(g.relay, x)] }
  | .finish j => match s.senders[j]? with
    | none => none
    | some g => if g.done then none else match s.chans[g.relay]? with
      | none => none
      | some c => if c.closed ∧ c.queue = [] then some { s with senders := s.senders.set j { g with done := true } } else none

/-- A sequence of steps. -/
def run (s : State α) : List (Ev α) → Option (State α)
  | [] => some s
  | e :: es => match step s e with
    | none => none
    | some s' => run s' es

end Resmix.Rrpc.Streams
