import Verif.Model.Base
import Mathlib.Data.List.Forall2
set_option autoImplicit false
/-
Publishing proofs of finished calls to the relays: rrpc/coordinator.go:240-244, rrpc/net_conns.go:71, 103-134, rrpc/relay.go:43-58. `π` are proofs.
-/
namespace Resmix.Rrpc.Publish
variable {π : Type}

/-- A connection to a relay: the channel `sendProofChan` (capacity 100, rrpc/net_conns.go:71), its context, whether its goroutine `proofSendingStream` still runs, and
what the relay has received on the stream. -/
structure Conn (π : Type) where
  queue : List π
  cancelled : Bool
  running : Bool
  received : List π

/-- A new connection. -/
def Conn.init : Conn π := { queue := [], cancelled := false, running := true, received := [] }

/-- rrpc/net_conns.go:124-134 `SendProof`: the possible states afterwards. `select` takes any case that is ready; the default only if none is. -/
inductive SendProof (p : π) : Conn π → Conn π → Prop
  | sent (c : Conn π) : c.queue.length < 100 → SendProof p c { c with queue := c.queue ++ [p] }
  | done (c : Conn π) : c.cancelled = true → SendProof p c c
  | default (c : Conn π) : ¬ c.queue.length < 100 → c.cancelled = false → SendProof p c c

/-- The other steps of a connection: its goroutine takes a proof and sends it (rrpc/net_conns.go:114-117; the relay receives it, rrpc/relay.go:48), or its send fails (118, a log
entry, the proof is gone); the connection is closed (the context is cancelled); the goroutine ends (108-113). -/
inductive Step : Conn π → Conn π → Prop
  | send (c : Conn π) (p : π) (q : List π) : c.running = true → c.queue = p :: q → Step c { c with queue := q, received := c.received ++ [p] }
  | fail (c : Conn π) (p : π) (q : List π) : c.running = true → c.queue = p :: q → Step c { c with queue := q }
  | cancel (c : Conn π) : Step c { c with cancelled := true }
  | stop (c : Conn π) : c.running = true → c.cancelled = true → Step c { c with running := false }

/-- rrpc/coordinator.go:240-244 `PublishProof`: all connections, in any order (they do not share anything). -/
def PublishProof (p : π) (cs cs' : List (Conn π)) : Prop := List.Forall₂ (SendProof p) cs cs'

/-- All connections of a coordinator, `n` relays, with the proofs published so far. -/
inductive Reachable (n : Nat) : List π → List (Conn π) → Prop
  | init : Reachable n [] (List.replicate n .init)
  | publish (ps : List π) (p : π) (cs cs' : List (Conn π)) : Reachable n ps cs → PublishProof p cs cs' → Reachable n (ps ++ [p]) cs'
  | step (ps : List π) (cs : List (Conn π)) (i : Nat) (c c' : Conn π) : Reachable n ps cs → cs[i]? = some c → Step c c' → Reachable n ps (cs.set i c')

end Resmix.Rrpc.Publish
