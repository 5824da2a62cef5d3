import Verif.Model.Ecc
set_option autoImplicit false
/-
The goroutines of internal/ecc/reedsolomon.go: concurrent calls of AuthEncode and AuthReconstruct share a coder's two task queues and its workers
(lines 40-81, 102-150, 168-192, 219-242).
-/
namespace Resmix.Ecc.EccPool
open Resmix.Ecc

/-- A call: `AuthEncode(data)` or `AuthReconstruct(shards, dataSize)`. -/
inductive Job
  | encode (data : Bytes)
  | decode (shards : List (List Bytes)) (dataSize : Nat)

/-- What a call returns. -/
inductive Out
  | shards (x : List (List Bytes))
  | data (b : Bytes)

/-- A task, for one chunk of one call; the chunk itself is read off the call's job. -/
structure Task where
  call : Nat
  chunk : Nat
deriving DecidableEq

/-- A running call: `next` tasks were put into the queue (lines 50-67, 112-134); `chan`: its response channel, of capacity 36; `received`: the responses taken
from it, in order (lines 69-79, 136-147); `ret`: what the call returned. -/
structure Call where
  job : Job
  next : Nat
  chan : List Nat
  received : List Nat
  ret : Option (Go Out)

/-- A worker (lines 219-242): in the select, computing a task, or returned. -/
inductive Worker
  | idle
  | busy (t : Task)
  | exited
deriving DecidableEq

/-- `queue false` holds the tasks of encoding calls, `queue true` those of decoding calls; both have capacity `cap` = 36 · number of CPUs (lines 183-184). -/
structure State where
  queue : Bool → List Task
  workers : List Worker
  calls : List Call
  stopped : Bool

/-- lines 172-192 `NewRSEncoderDecoder` with `n` CPUs. -/
def init (n : Nat) : State := { queue := fun _ => [], workers := List.replicate n .idle, calls := [], stopped := false }

/-- Which queue a call uses. -/
def Job.decodes : Job → Bool
  | .encode _ => false
  | .decode _ _ => true

/-- lines 69-80 / 136-149: what a call returns once it has received the responses `order`; `.ok none`: it waits for the next one. -/
def outcome (C : RS) : Job → List Nat → Go (Option Out)
  | .encode data, order =>
    (order.foldlM (encodeArrival C (data ++ List.replicate numChunks 0)) (List.replicate numChunks [])).map fun acc =>
      if order.length = numChunks then some (.shards acc) else none
  | .decode shards dataSize, order =>
    (order.foldlM (decodeArrival C shards (dataSize + numChunks)) (List.replicate (dataSize + numChunks) 0)).map fun data =>
      if order.length = numChunks then some (.data (data.take (data.length - numChunks))) else none

/-- The call receives a response. -/
def Call.receive (C : RS) (c : Call) (i : Nat) (rest : List Nat) : Call :=
  { c with chan := rest, received := c.received ++ [i]
           ret := match outcome C c.job (c.received ++ [i]) with
             | .error e => some (.error e)
             | .ok none => none
             | .ok (some o) => some (.ok o) }

/-- The index of the next task is out of range (line 126): the call panics. -/
def Job.short (n : Nat) : Job → Bool
  | .encode _ => false
  | .decode shards _ => decide (shards.length ≤ n)

/-- What may happen next. -/
inductive Ev
  | call (j : Job)          -- a goroutine calls the coder
  | submit (c : Nat)        -- lines 63, 130
  | take (w : Nat) (q : Bool)   -- lines 222, 230
  | reply (w : Nat)         -- lines 223-228, 231-236
  | receive (c : Nat)       -- lines 71, 138
  | stop                    -- lines 168-170
  | abort (c : Nat)         -- lines 64-65, 76-77, 131-132, 144-145
  | exit (w : Nat)          -- lines 238-239

/-- Replace call `i`. -/
def State.setCall (s : State) (i : Nat) (c : Call) : State := { s with calls := s.calls.set i c }

/-- Replace queue `q`. -/
def State.setQueue (s : State) (q : Bool) (l : List Task) : State := { s with queue := fun b => if b = q then l else s.queue b }

/-- One step; `none`: not possible now. -/
def step (C : RS) (cap : Nat) (s : State) (e : Ev) : Option State :=
  match e with
  | .call j => some { s with calls := s.calls ++ [{ job := j, next := 0, chan := [], received := [], ret := none }] }
  | .submit i => match s.calls[i]? with
    | some c =>
      if c.ret.isNone ∧ c.next < numChunks then
        if c.job.short c.next then some (s.setCall i { c with ret := some (.error .panic) })
        else if (s.queue c.job.decodes).length < cap then
          some ((s.setQueue c.job.decodes (s.queue c.job.decodes ++ [⟨i, c.next⟩])).setCall i { c with next := c.next + 1 })
        else none
      else none
    | none => none
  | .take w q => match s.workers[w]?, s.queue q with
    | some .idle, t :: rest => some { s.setQueue q rest with workers := s.workers.set w (.busy t) }
    | _, _ => none
  | .reply w => match s.workers[w]? with
    | some (.busy t) => match s.calls[t.call]? with
      | some c =>
        if c.chan.length < numChunks then
          some { s.setCall t.call { c with chan := c.chan ++ [t.chunk] } with workers := s.workers.set w .idle }
        else none
      | none => none
    | _ => none
  | .receive i => match s.calls[i]? with
    | some c =>
      if c.ret.isNone ∧ c.next = numChunks then
        match c.chan with
        | k :: rest => some (s.setCall i (c.receive C k rest))
        | [] => none
      else none
    | none => none
  | .stop => some { s with stopped := true }
  | .abort i => match s.calls[i]? with
    | some c => if c.ret.isNone ∧ s.stopped then some (s.setCall i { c with ret := some (.error stoppedErr) }) else none
    | none => none
  | .exit w => match s.workers[w]? with
    | some .idle => if s.stopped then some { s with workers := s.workers.set w .exited } else none
    | _ => none

/-- A sequence of steps. -/
def run (C : RS) (cap : Nat) (s : State) : List Ev → Option State
  | [] => some s
  | e :: es => match step C cap s e with
    | none => none
    | some s' => run C cap s' es

end Resmix.Ecc.EccPool
