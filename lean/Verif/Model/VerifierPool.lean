import Verif.Model.Verifier
set_option autoImplicit false
/-
The verifier with its channel of bounded capacity, its workers and Stop: rrpc/merkle_verifier.go:52-65, 86-203. Model/Verifier leaves these out (there a worker is always
ready); here every step of lines 86-159 is a step of its own.
-/
namespace Resmix.Rrpc
open Resmix.Merkle

/-- What is passed over the channel `tasks` (rrpc/merkle_verifier.go:41, 67-82): the path check of call `i`, or the signature check of the task object `t`. -/
inductive PTask
  | path (i : Nat)
  | sig (t : Nat)
deriving DecidableEq

/-- Where a call is in lines 86-140. -/
inductive PPc
  | start
  | queued                                -- line 103: the path check is sent, no answer yet
  | answered (r : Go Unit)                -- line 103: the answer is in `responseChan`
  | authed                                -- line 107
  | loaded (task : Nat)                   -- line 118
  | chosen (task : Nat)                   -- line 121: this call has to send the task
  | waiting (task : Nat) (mine : Bool)    -- line 125
  | done (res : Go Unit)

/-- The verifier. Workers are not told apart: `idle` of them wait in the `select` of line 145, each of the others that still run is busy with a task. -/
structure PState where
  map : GoMap Digest Nat
  tasks : List VTask
  calls : List (VCall × PPc)
  chan : List PTask
  idle : Nat
  busy : List PTask
  stopped : Bool
  crashed : Bool

/-- rrpc/merkle_verifier.go:52-65, 199-203 `NewVerifier(n)`. -/
def PState.init (n : Nat) : PState := { map := [], tasks := [], calls := [], chan := [], idle := n, busy := [], stopped := false, crashed := false }

/-- Line 55: the capacity of the channel. -/
def tasksCap (n : Nat) : Nat := n * 8

/-- A call is at `pc` from now on. -/
def PState.goto (s : PState) (i : Nat) (c : VCall) (pc : PPc) : PState := { s with calls := s.calls.set i (c, pc) }

/-- One step of a goroutine that has called `Verify`, or of a worker, of a verifier with `n` workers. -/
inductive PWork (S : SigScheme) (H : HashFn) (n : Nat) : PState → PState → Prop
  /-- Lines 87-92. -/
  | noCert (s : PState) (i : Nat) (c : VCall) : s.crashed = false → s.calls[i]? = some (c, .start) → c.cert = none →
      PWork S H n s (s.goto i c (.done (.error emptyCertificate)))
  /-- Line 102: blocks while the channel is full. -/
  | submit (s : PState) (i : Nat) (c : VCall) (cert : MerkleCertificate) : s.crashed = false → s.calls[i]? = some (c, .start) → c.cert = some cert →
      s.chan.length < tasksCap n → PWork S H n s (PState.goto { s with chan := s.chan ++ [PTask.path i] } i c .queued)
  /-- Line 146: an idle worker receives a task. (Also after Stop: the `select` may take either case.) -/
  | pick (s : PState) (x : PTask) (q : List PTask) : s.crashed = false → 0 < s.idle → s.chan = x :: q →
      PWork S H n s { s with chan := q, idle := s.idle - 1, busy := x :: s.busy }
  /-- Lines 150-151, 161-169: a worker checks a path; the answer fits into `responseChan` (line 100). -/
  | answer (s : PState) (l₁ l₂ : List PTask) (i : Nat) (c : VCall) (cert : MerkleCertificate) : s.crashed = false → s.busy = l₁ ++ PTask.path i :: l₂ →
      s.calls[i]? = some (c, .queued) → c.cert = some cert →
      PWork S H n s (PState.goto { s with busy := l₁ ++ l₂, idle := s.idle + 1 } i c (.answered (authPath H cert c.enc)))
  /-- Line 165 or 168: a second answer would be a send on a closed channel. -/
  | answerTwice (s : PState) (i : Nat) : s.crashed = false → PTask.path i ∈ s.busy → (∀ c, s.calls[i]? ≠ some (c, .queued)) →
      PWork S H n s { s with crashed := true }
  /-- Line 103: the path is right. -/
  | pathOk (s : PState) (i : Nat) (c : VCall) : s.crashed = false → s.calls[i]? = some (c, .answered (.ok ())) → PWork S H n s (s.goto i c .authed)
  /-- Lines 103-105: it is not. -/
  | pathBad (s : PState) (i : Nat) (c : VCall) (e : Fail) : s.crashed = false → s.calls[i]? = some (c, .answered (.error e)) →
      PWork S H n s (s.goto i c (.done (.error e)))
  /-- Lines 107-117 LoadOrStore: an entry exists. -/
  | load (s : PState) (i : Nat) (c : VCall) (cert : MerkleCertificate) (t : Nat) : s.crashed = false → s.calls[i]? = some (c, .authed) →
      c.cert = some cert → s.map.lookup (fitDigest cert.root) = some t → PWork S H n s (s.goto i c (.loaded t))
  /-- Lines 107-117 LoadOrStore: a new entry. -/
  | store (s : PState) (i : Nat) (c : VCall) (cert : MerkleCertificate) : s.crashed = false → s.calls[i]? = some (c, .authed) →
      c.cert = some cert → s.map.lookup (fitDigest cert.root) = none →
      PWork S H n s (PState.goto { s with map := s.map.insert (fitDigest cert.root) s.tasks.length, tasks := s.tasks ++ [{ pk := c.pk, cert := cert, taken := false, result := none }] } i c (.loaded s.tasks.length))
  /-- Line 118: the first to swap. -/
  | take (s : PState) (i : Nat) (c : VCall) (t : Nat) (task : VTask) : s.crashed = false → s.calls[i]? = some (c, .loaded t) →
      s.tasks[t]? = some task → task.taken = false → PWork S H n s (PState.goto { s with tasks := s.tasks.set t { task with taken := true } } i c (.chosen t))
  /-- Line 118: somebody else was. -/
  | join (s : PState) (i : Nat) (c : VCall) (t : Nat) (task : VTask) : s.crashed = false → s.calls[i]? = some (c, .loaded t) →
      s.tasks[t]? = some task → task.taken = true → PWork S H n s (s.goto i c (.waiting t false))
  /-- Line 121: blocks while the channel is full. -/
  | submitSig (s : PState) (i : Nat) (c : VCall) (t : Nat) : s.crashed = false → s.calls[i]? = some (c, .chosen t) → s.chan.length < tasksCap n →
      PWork S H n s (PState.goto { s with chan := s.chan ++ [PTask.sig t] } i c (.waiting t true))
  /-- Lines 148-149, 171-185: a worker verifies a signature and closes `ready`. -/
  | work (s : PState) (l₁ l₂ : List PTask) (t : Nat) (task : VTask) : s.crashed = false → s.busy = l₁ ++ PTask.sig t :: l₂ → s.tasks[t]? = some task →
      task.result = none → sigResult S task.pk task.cert ≠ .error .panic →
      PWork S H n s { s with busy := l₁ ++ l₂, idle := s.idle + 1, tasks := s.tasks.set t { task with result := some (sigResult S task.pk task.cert) } }
  /-- A malformed key makes the worker panic. -/
  | workCrash (s : PState) (t : Nat) (task : VTask) : s.crashed = false → PTask.sig t ∈ s.busy → s.tasks[t]? = some task →
      sigResult S task.pk task.cert = .error .panic → PWork S H n s { s with crashed := true }
  /-- Line 173: closing `ready` a second time panics. -/
  | workTwice (s : PState) (t : Nat) (task : VTask) (r : Go Unit) : s.crashed = false → PTask.sig t ∈ s.busy → s.tasks[t]? = some task →
      task.result = some r → PWork S H n s { s with crashed := true }
  /-- Lines 125, 139: accepted. -/
  | accept (s : PState) (i : Nat) (c : VCall) (t : Nat) (mine : Bool) (task : VTask) : s.crashed = false →
      s.calls[i]? = some (c, .waiting t mine) → s.tasks[t]? = some task → task.result = some (.ok ()) → PWork S H n s (s.goto i c (.done (.ok ())))
  /-- Lines 126-136: the signature was bad, the call starts again. -/
  | retry (s : PState) (i : Nat) (c : VCall) (cert : MerkleCertificate) (t : Nat) (task : VTask) (e : Fail) : s.crashed = false →
      s.calls[i]? = some (c, .waiting t false) → c.cert = some cert → s.tasks[t]? = some task → task.result = some (.error e) →
      task.cert.signature = cert.signature → PWork S H n s (PState.goto { s with map := s.map.erase (fitDigest cert.root) } i c .start)
  /-- Lines 126-130, 137: the signature was bad, the call fails. -/
  | reject (s : PState) (i : Nat) (c : VCall) (cert : MerkleCertificate) (t : Nat) (mine : Bool) (task : VTask) (e : Fail) : s.crashed = false →
      s.calls[i]? = some (c, .waiting t mine) → c.cert = some cert → s.tasks[t]? = some task → task.result = some (.error e) →
      (mine = true ∨ task.cert.signature ≠ cert.signature) →
      PWork S H n s (PState.goto { s with map := s.map.erase (fitDigest cert.root) } i c (.done (.error e)))
  /-- Lines 154-155: an idle worker ends after Stop. -/
  | exit (s : PState) : s.crashed = false → s.stopped = true → 0 < s.idle → PWork S H n s { s with idle := s.idle - 1 }

/-- One step of some goroutine. -/
inductive PStep (S : SigScheme) (H : HashFn) (n : Nat) : PState → PState → Prop
  /-- A goroutine calls `Verify`. -/
  | call (s : PState) (c : VCall) : s.crashed = false → PStep S H n s { s with calls := s.calls ++ [(c, .start)] }
  /-- A step of a call in progress or of a worker. -/
  | work (s s' : PState) : PWork S H n s s' → PStep S H n s s'
  /-- rrpc/gc.go:15-32: the cleanup, or Stop (line 190), drops an entry. -/
  | clean (s : PState) (d : Digest) : s.crashed = false → PStep S H n s { s with map := s.map.erase d }
  /-- Lines 187-191 `Stop`: `done` is closed once; the entries it drops are `clean` steps. -/
  | stop (s : PState) : s.crashed = false → PStep S H n s { s with stopped := true }

/-- Reachable states of a verifier with `n` workers. -/
inductive PReach (S : SigScheme) (H : HashFn) (n : Nat) : PState → Prop
  | init : PReach S H n (.init n)
  | step (s s' : PState) : PReach S H n s → PStep S H n s s' → PReach S H n s'

end Resmix.Rrpc
