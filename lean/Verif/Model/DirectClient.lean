import Verif.Model.GoMap
import Verif.Model.Strings
set_option autoImplicit false
/-
The goroutines of a client around its direct calls: rrpc/client.go:65-175, 216-240 and rrpc/gc.go:15-44. What verification and unpacking make of a
response is one value (Model/Direct `directReply`); signing a single note does not fail (C45). Not modelled: Close.
-/
namespace Resmix.Rrpc.DirectClient
variable {ρ : Type}

/-- What is sent on a call's `Err` channel: what a response gave, a failed send, a time-out; `closed`: what a receive from the closed channel gives. -/
inductive Res (ρ : Type)
  | response (x : ρ)
  | sendError
  | timeout
  | closed
deriving DecidableEq

/-- rrpc/client.go:46-50 `rqstWithErr`; `closed`: its `Err` channel is closed. `awaiting`: the user has asked for the result (line 222, or a receive from
the channel returned by line 239); `got` what he received; he receives once. -/
structure Call (ρ : Type) where
  uuid : Str
  start : Nat
  closed : Bool
  awaiting : Bool
  got : Option (Res ρ)

/-- Where the goroutine at lines 72-97 is: waiting for a response; in the deferred function of `VerifyAndDispatch`, about to send (line 157) or to
close (line 158). -/
inductive Disp (ρ : Type)
  | idle
  | sending (call : Nat) (x : ρ)
  | closing (call : Nat)

/-- Where the goroutine at lines 99-136 is: waiting for a request; reporting a failed send (line 126). -/
inductive Sender
  | idle
  | failing (call : Nat)

/-- Where the cleanup goroutine (lines 138-142) is: between entries; in `PrepareForDeletion` of an entry (rrpc/gc.go:27, rrpc/client.go:57); about to
delete its key (rrpc/gc.go:28). -/
inductive Cleaner
  | idle
  | notifying (call : Nat)
  | deleting (call : Nat)

/-- The client. `calls` are all call objects ever made; `waiting` is `waitingTasks`, `queue` is `directCallSendChannel`. -/
structure State (ρ : Type) where
  calls : List (Call ρ)
  waiting : GoMap Str Nat
  queue : List Nat
  disp : Disp ρ
  sender : Sender
  cleaner : Cleaner
  crashed : Bool

/-- rrpc/client.go:177-214 `newClient`. -/
def init : State ρ := { calls := [], waiting := [], queue := [], disp := .idle, sender := .idle, cleaner := .idle, crashed := false }

/-- What may happen next. -/
inductive Ev (ρ : Type)
  | call (uuid : Str) (now : Nat)      -- lines 230-236: a call object is made and stored
  | enqueue (call : Nat)               -- line 237
  | await (call : Nat)                 -- the user waits for the result
  | readClosed (call : Nat)            -- he receives from the closed channel
  | sendOk                             -- lines 106-124, the request is sent
  | sendFail                           -- line 124: it is not
  | reportFail                         -- line 126: the report is received
  | respond (uuid : Str) (x : ρ)       -- lines 78, 87, 149: a response is received
  | dispatch                           -- line 157: the result is received
  | close                              -- line 158
  | visit (uuid : Str) (now : Nat)     -- rrpc/gc.go:16-25: the cleanup looks at an entry
  | notify                             -- rrpc/gc.go:27: the time-out is received
  | delete                             -- rrpc/gc.go:28

/-- A send of `x` on the channel of call `i`: it panics if the channel is closed, and completes when the user receives it. -/
def deliver (s : State ρ) (i : Nat) (x : Res ρ) (s' : State ρ) : Option (State ρ) :=
  match s.calls[i]? with
  | none => none
  | some c =>
    if c.closed then some { s with crashed := true }
    else if c.awaiting ∧ c.got.isNone then some { s' with calls := s'.calls.set i { c with got := some x } }
    else none

/-- One step; `none`: not possible now. `ttl` is rrpc/vars.go:8-18. -/
def step (ttl : Nat) (s : State ρ) (e : Ev ρ) : Option (State ρ) :=
  if s.crashed then none else
  match e with
  | .call u now => some { s with calls := s.calls ++ [{ uuid := u, start := now, closed := false, awaiting := false, got := none }]
                                 waiting := s.waiting.insert u s.calls.length }
  | .enqueue i => if i < s.calls.length ∧ s.queue.length < 10 then some { s with queue := s.queue ++ [i] } else none
  | .await i => match s.calls[i]? with
    | none => none
    | some c => some { s with calls := s.calls.set i { c with awaiting := true } }
  | .readClosed i => match s.calls[i]? with
    | none => none
    | some c => if c.awaiting ∧ c.got.isNone ∧ c.closed then some { s with calls := s.calls.set i { c with got := some .closed } } else none
  | .sendOk => match s.sender, s.queue with
    | .idle, _ :: q => some { s with queue := q }
    | _, _ => none
  | .sendFail => match s.sender, s.queue with
    | .idle, i :: q => some { s with queue := q, sender := .failing i }
    | _, _ => none
  | .reportFail => match s.sender with
    | .idle => none
    | .failing i => deliver s i .sendError { s with sender := .idle }
  | .respond u x => match s.disp with
    | .idle => match s.waiting.lookup u with
      | none => some s
      | some i => some { s with waiting := s.waiting.erase u, disp := .sending i x }
    | _ => none
  | .dispatch => match s.disp with
    | .sending i x => deliver s i (.response x) { s with disp := .closing i }
    | _ => none
  | .close => match s.disp with
    | .closing i => match s.calls[i]? with
      | none => none
      | some c => if c.closed then some { s with crashed := true } else some { s with calls := s.calls.set i { c with closed := true }, disp := .idle }
    | _ => none
  | .visit u now => match s.cleaner with
    | .idle => match s.waiting.lookup u with
      | none => some s
      | some i => match s.calls[i]? with
        | none => none
        | some c => if now - c.start < ttl then some s else some { s with cleaner := .notifying i }
    | _ => none
  | .notify => match s.cleaner with
    | .notifying i => deliver s i .timeout { s with cleaner := .deleting i }
    | _ => none
  | .delete => match s.cleaner with
    | .deleting i => match s.calls[i]? with
      | none => none
      | some c => some { s with waiting := s.waiting.erase c.uuid, cleaner := .idle }
    | _ => none

/-- A sequence of steps. -/
def run (ttl : Nat) (s : State ρ) : List (Ev ρ) → Option (State ρ)
  | [] => some s
  | e :: es => match step ttl s e with
    | none => none
    | some s' => run ttl s' es

end Resmix.Rrpc.DirectClient
