import Verif.Model.DirectClient
set_option autoImplicit false
/-
Closing a client: rrpc/client.go:60-63 (`Close` cancels the client's context and returns nil), with the ends of the three goroutines of Model/DirectClient:
rrpc/client.go:79-86 (the stream's `Recv` fails once the context is cancelled, or when the server has ended the stream), 130-132 (the sender sees the
cancelled context in its `select`), rrpc/gc.go:40-41 (the cleanup sees it). Requests that are handed in afterwards are stored and queued as before: lines 225-239
do not look at the context.
-/
namespace Resmix.Rrpc.DirectClient
variable {ρ : Type}

/-- The client, with the state of its context and which of its goroutines still run. -/
structure Closable (ρ : Type) where
  inner : State ρ
  cancelled : Bool
  receiving : Bool
  sending : Bool
  cleaning : Bool

/-- rrpc/client.go:177-214 `newClient`. -/
def Closable.init : Closable ρ := { inner := DirectClient.init, cancelled := false, receiving := true, sending := true, cleaning := true }

/-- What may happen next. -/
inductive CEv (ρ : Type)
  | inner (e : Ev ρ)
  | close          -- rrpc/client.go:61
  | endRecv        -- rrpc/client.go:79-86
  | endSend        -- rrpc/client.go:130-132
  | endClean       -- rrpc/gc.go:40-41

/-- Which goroutine makes a step: the receiving one, the sending one, the cleaning one, or a user's. -/
def Closable.runs (s : Closable ρ) : Ev ρ → Bool
  | .respond _ _ => s.receiving
  | .dispatch => s.receiving
  | .close => s.receiving
  | .sendOk => s.sending
  | .sendFail => s.sending
  | .reportFail => s.sending
  | .visit _ _ => s.cleaning
  | .notify => s.cleaning
  | .delete => s.cleaning
  | _ => true

/-- One step; `none`: not possible now. The receiving goroutine may also end while the client is open, because the server ended the stream. A `select` with several ready
cases takes any: the goroutines may go on for a while after the cancellation. -/
def cstep (ttl : Nat) (s : Closable ρ) : CEv ρ → Option (Closable ρ)
  | .inner e => if s.runs e then (step ttl s.inner e).map fun i => { s with inner := i } else none
  | .close => if s.inner.crashed then none else some { s with cancelled := true }
  | .endRecv => match s.inner.disp with
    | .idle => if s.receiving && !s.inner.crashed then some { s with receiving := false } else none
    | _ => none
  | .endSend => match s.inner.sender with
    | .idle => if s.sending && s.cancelled && !s.inner.crashed then some { s with sending := false } else none
    | _ => none
  | .endClean => match s.inner.cleaner with
    | .idle => if s.cleaning && s.cancelled && !s.inner.crashed then some { s with cleaning := false } else none
    | _ => none

/-- A sequence of steps. -/
def crun (ttl : Nat) (s : Closable ρ) : List (CEv ρ) → Option (Closable ρ)
  | [] => some s
  | e :: es => match cstep ttl s e with
    | none => none
    | some s' => crun ttl s' es

end Resmix.Rrpc.DirectClient
