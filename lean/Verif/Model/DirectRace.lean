import Verif.Model.DirectClient
import Verif.Spec.Race
set_option autoImplicit false
/-
Who reads and writes the *Request of a direct call: rrpc/client.go:65-175, 216-240 (Model/DirectClient) with the accesses and synchronisations of every step.
-/
namespace Resmix.Rrpc.DirectRace
open Resmix.Race Resmix.Rrpc.DirectClient
variable {ρ : Type}

/-- Goroutines: the one that made call `i`; the client's sender (rrpc/client.go:99-136), receiver (72-97) and cleanup (138-142). -/
inductive Gor
  | user (i : Nat)
  | sender
  | receiver
  | cleanup
deriving DecidableEq

/-- Memory: of the Request of call `i`, what the call needs (Method, marshaledArgs, Uuid), and what it fills in (marshaledReply, and the message that Reply
points to: rrpc/client.go:170-171). -/
inductive Loc
  | args (i : Nat)
  | reply (i : Nat)
deriving DecidableEq

/-- Synchronisation objects of call `i`: its entry in `waitingTasks` (a sync.Map: a Store happens before the Loads that see it), its message in
`directCallSendChannel`, the request on the wire (received by the server before it responds), the message on its `Err` channel, the close of that channel. -/
inductive Obj
  | entry (i : Nat)
  | queued (i : Nat)
  | wire (i : Nat)
  | result (i : Nat)
  | closed (i : Nat)
deriving DecidableEq

abbrev Entry := Event Gor Loc Obj

/-- The receive of the result of call `i`, sent by `g`: nothing, if the send panics. -/
def handOver (s : DirectClient.State ρ) (g : Gor) (i : Nat) : List Entry :=
  match s.calls[i]? with
  | none => []
  | some c => if c.closed then [] else [⟨g, .release (.result i)⟩, ⟨.user i, .acquire (.result i)⟩]

/-- What a step that is possible in `s` accesses. A response with an error does not write the reply (rrpc/client.go:167-168); here every response does. -/
def effects (s : DirectClient.State ρ) (e : Ev ρ) : List Entry :=
  match e with
  | .call _ _ => let i := s.calls.length                -- lines 226-236: the user has filled the request in, pack writes marshaledArgs, Store
    [⟨.user i, .write (.args i)⟩, ⟨.user i, .write (.reply i)⟩, ⟨.user i, .release (.entry i)⟩]
  | .enqueue i => [⟨.user i, .release (.queued i)⟩]     -- line 237
  | .await _ => []
  | .readClosed i => [⟨.user i, .acquire (.closed i)⟩]
  | .sendOk => match s.queue with                       -- lines 106-124
    | [] => []
    | i :: _ => [⟨.sender, .acquire (.queued i)⟩, ⟨.sender, .read (.args i)⟩, ⟨.sender, .release (.wire i)⟩]
  | .sendFail => match s.queue with
    | [] => []
    | i :: _ => [⟨.sender, .acquire (.queued i)⟩, ⟨.sender, .read (.args i)⟩]
  | .reportFail => match s.sender with                  -- line 126
    | .idle => []
    | .failing i => handOver s .sender i
  | .respond u _ => match s.waiting.lookup u with       -- lines 149, 170-171
    | none => []
    | some i => [⟨.receiver, .acquire (.entry i)⟩, ⟨.receiver, .acquire (.wire i)⟩, ⟨.receiver, .write (.reply i)⟩]
  | .dispatch => match s.disp with                      -- line 157
    | .sending i _ => handOver s .receiver i
    | _ => []
  | .close => match s.disp with                         -- line 158
    | .closing i => [⟨.receiver, .release (.closed i)⟩]
    | _ => []
  | .visit u _ => match s.waiting.lookup u with         -- rrpc/gc.go:16-25
    | none => []
    | some i => [⟨.cleanup, .acquire (.entry i)⟩]
  | .notify => match s.cleaner with                     -- rrpc/gc.go:27, rrpc/client.go:57
    | .notifying i => handOver s .cleanup i
    | _ => []
  | .delete => []

/-- The calls whose requests the sender takes from the channel in this step. -/
def taken (s : DirectClient.State ρ) (e : Ev ρ) : List Nat :=
  match e with
  | .sendOk | .sendFail => s.queue.take 1
  | _ => []

/-- The calls put on the channel in this step. -/
def put : Ev ρ → List Nat
  | .enqueue i => [i]
  | _ => []

/-- The client, which calls were put on the channel (`enq`) and taken from it (`sent`), and all accesses so far. -/
structure State (ρ : Type) where
  inner : DirectClient.State ρ
  enq : List Nat
  sent : List Nat
  trace : List Entry

/-- A step of the client; or the user of call `i`, who has its result, looks at the request (`read`), or changes it, for instance to use it for the next
call (`reuse`). -/
inductive Act (ρ : Type)
  | ev (e : Ev ρ)
  | read (i : Nat)
  | reuse (i : Nat)

/-- AsyncDirectCall puts a call on the channel once, and only then returns the channel of the result (rrpc/client.go:236-239). -/
def inOrder (enq : List Nat) : Ev ρ → Bool
  | .enqueue i => decide (i ∉ enq)
  | .await i => decide (i ∈ enq)
  | _ => true

/-- One step; `none`: not possible now. -/
def step (ttl : Nat) (s : State ρ) (a : Act ρ) : Option (State ρ) :=
  match a with
  | .ev e =>
    if !inOrder s.enq e then none
    else (DirectClient.step ttl s.inner e).map fun m =>
      { inner := m
        enq := s.enq ++ put e
        sent := s.sent ++ taken s.inner e
        trace := s.trace ++ effects s.inner e }
  | .read i => match s.inner.calls[i]? with
    | none => none
    | some c => if c.got.isSome then some { s with trace := s.trace ++ [⟨.user i, .read (.args i)⟩, ⟨.user i, .read (.reply i)⟩] } else none
  | .reuse i => match s.inner.calls[i]? with
    | none => none
    | some c => if c.got.isSome then some { s with trace := s.trace ++ [⟨.user i, .write (.args i)⟩, ⟨.user i, .write (.reply i)⟩] } else none

/-- A run. -/
def run (ttl : Nat) (s : State ρ) : List (Act ρ) → Option (State ρ)
  | [] => some s
  | a :: as => (step ttl s a).bind fun s' => run ttl s' as

/-- A new client. -/
def start : State ρ := ⟨DirectClient.init, [], [], []⟩

end Resmix.Rrpc.DirectRace
