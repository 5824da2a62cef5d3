import Verif.Model.Base
set_option autoImplicit false
/-
The responses of the servers a coordinator is connected to: the receiving goroutines of its server connections (rrpc/net_conns.go:322-341), the channel they fill
(rrpc/coordinator.go:57, 102, 155-157), its reader (rrpc/relay.go:71-85) and `Close` (rrpc/coordinator.go:108-130). Not modelled: the sending goroutines.
-/
namespace Resmix.Rrpc.Incoming
variable {ρ : Type}

/-- rrpc/coordinator.go:102: the capacity of the channel. -/
def capacity : Nat := 100

/-- How a stream can have ended, as the error `Recv` returns: io.EOF, io.ErrUnexpectedEOF, another error without status, or a status with its code. -/
inductive End
  | eof
  | unexpectedEof
  | plain
  | status (code : Nat)
deriving DecidableEq

/-- rrpc/net_conns.go:217-233 `isEOFFromServer`: codes.Unavailable is 14, codes.Canceled 1. -/
def isEOFFromServer : End → Bool
  | .eof => true
  | .unexpectedEof => true
  | .plain => false
  | .status c => c == 14 || c == 1

/-- Where a receiving goroutine is: in `Recv` (line 328), about to send to the channel (line 339), or it has returned. -/
inductive Pc (ρ : Type)
  | receiving
  | holding (x : ρ)
  | stopped

/-- A receiving goroutine and its stream; every further `Recv` on a stream that has ended returns the same error. -/
structure Receiver (ρ : Type) where
  pc : Pc ρ
  ended : Option End

/-- The responses carry the number of the server they came from. `received` and `taken` are ghosts: what was received from the streams and what the reader has
taken, in order. `closed`: the channel is closed. -/
structure State (ρ : Type) where
  receivers : List (Receiver ρ)
  queue : List (Nat × ρ)
  closed : Bool
  cancelled : Bool
  crashed : Bool
  received : List (Nat × ρ)
  taken : List (Nat × ρ)

/-- After a `Dial` with `n` servers. -/
def init (n : Nat) : State ρ :=
  { receivers := List.replicate n ⟨.receiving, none⟩, queue := [], closed := false, cancelled := false, crashed := false, received := [], taken := [] }

/-- What may happen next. -/
inductive Ev (ρ : Type)
  | response (i : Nat) (x : ρ)   -- line 328: `Recv` returns a response
  | push (i : Nat)               -- line 339
  | ends (i : Nat) (e : End)     -- the stream ends
  | recvErr (i : Nat)            -- lines 328-337: `Recv` returns the error of a stream that has ended
  | take                         -- the reader takes a response
  | close                        -- rrpc/coordinator.go:112
  | cancel                       -- rrpc/coordinator.go:114 and 123-127: the contexts are cancelled

/-- A stream whose context is cancelled ends. -/
def Receiver.cancel (g : Receiver ρ) : Receiver ρ := { g with ended := some (g.ended.getD (.status 1)) }

/-- One step; `none`: not possible now. -/
def step (s : State ρ) (e : Ev ρ) : Option (State ρ) :=
  if s.crashed then none else
  match e with
  | .response i x => match s.receivers[i]? with
    | some ⟨.receiving, none⟩ => some { s with receivers := s.receivers.set i ⟨.holding x, none⟩, received := s.received ++ [(i, x)] }
    | _ => none
  | .push i => match s.receivers[i]? with
    | some ⟨.holding x, g⟩ =>
      if s.closed then some { s with crashed := true }             -- send on closed channel
      else if s.queue.length < capacity then some { s with receivers := s.receivers.set i ⟨.receiving, g⟩, queue := s.queue ++ [(i, x)] }
      else none
    | _ => none
  | .ends i e => match s.receivers[i]? with
    | some ⟨p, none⟩ => some { s with receivers := s.receivers.set i ⟨p, some e⟩ }
    | _ => none
  | .recvErr i => match s.receivers[i]? with
    | some ⟨.receiving, some e⟩ => if isEOFFromServer e then some { s with receivers := s.receivers.set i ⟨.stopped, some e⟩ } else some s
    | _ => none
  | .take => match s.queue with
    | x :: q => some { s with queue := q, taken := s.taken ++ [x] }
    | [] => none
  | .close => if s.closed then some { s with crashed := true } else some { s with closed := true }
  | .cancel => if s.closed then some { s with cancelled := true, receivers := s.receivers.map Receiver.cancel } else none

/-- A sequence of steps. -/
def run (s : State ρ) : List (Ev ρ) → Option (State ρ)
  | [] => some s
  | e :: es => match step s e with
    | none => none
    | some s' => run s' es

end Resmix.Rrpc.Incoming
