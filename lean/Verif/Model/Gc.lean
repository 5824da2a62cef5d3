import Verif.Model.GoMap
set_option autoImplicit false
/-
Model of rrpc/gc.go:9-44 and of the entries its four users keep. Times are nanoseconds.
-/
namespace Resmix.Rrpc

/-- The entries of the maps that are cleaned. `made` is when the entry was made: for a direct call it is recorded in the entry (rrpc/client.go:230-234),
for a relay's task too (rrpc/relay.go:158-162); a request to a relay leaves its time zero (rrpc/coordinator.go:178-181); a verification task
has none (rrpc/merkle_verifier.go:67-76). -/
inductive PendingEntry
  | direct (made : Nat)       -- *rqstWithErr in client.waitingTasks
  | relayTask (made : Nat)    -- relaytask in relay.uuidToPeer
  | relayRequest (made : Nat) -- relayConnRequest in RelayConn.liveTasks
  | verifyTask (made : Nat)   -- *merkleVerifyTask in MerkleCertVerifier.taskMap
deriving DecidableEq

/-- When the entry was made. -/
def PendingEntry.made : PendingEntry → Nat
  | .direct t => t
  | .relayTask t => t
  | .relayRequest t => t
  | .verifyTask t => t

/-- Line 17 `value.(GCable)`, with the start time; `none` inside for the zero time. A `relaytask` is stored by value but has the methods on its
pointer (rrpc/relay.go:24-33), so it is not GCable; a `relayConnRequest` has them on the value (rrpc/net_conns.go:40-49); a `*rqstWithErr` on the
pointer that is stored (rrpc/client.go:52-58). -/
def PendingEntry.gcable : PendingEntry → Option (Option Nat)
  | .direct t => some (some t)
  | .relayTask _ => none
  | .relayRequest _ => some none
  | .verifyTask _ => none

variable {κ : Type}

/-- Lines 16-31 for one entry at time `now`: is it kept, and is its owner notified? `time.Since` of the zero time exceeds every ttl used. -/
def cleanEntry (ttl now : Nat) (v : PendingEntry) : Bool × Bool :=
  match v.gcable with
  | none => (false, false)
  | some none => (false, true)
  | some (some t) => if now - t < ttl then (true, false) else (false, true)

/-- rrpc/gc.go:15-32 `cleanmapAccordingToTTL`, nobody else using the map: the entries left, and the keys whose owners are notified, in order. `now`
is when each key is looked at. -/
def cleanMap (ttl : Nat) (now : κ → Nat) : GoMap κ PendingEntry → GoMap κ PendingEntry × List κ
  | [] => ([], [])
  | (k, v) :: m =>
    let r := cleanMap ttl now m
    let c := cleanEntry ttl (now k) v
    (if c.1 then (k, v) :: r.1 else r.1, if c.2 then k :: r.2 else r.2)

/-- What happens to one of the cleaned maps: an entry is stored at time `now` (rrpc/client.go:230-235, rrpc/relay.go:158-162, rrpc/net_conns.go:146-148,
rrpc/merkle_verifier.go:107); an entry is removed because its call was answered or given up; a tick at time `t` starts a cleanup, which looks at key `k` at time
`now k` (rrpc/gc.go:34-44). Simplification: the cleanup is one step, nobody else uses the map meanwhile. -/
inductive TableEv (κ : Type)
  | put (now : Nat) (k : κ) (v : PendingEntry)
  | del (now : Nat) (k : κ)
  | clean (t : Nat) (now : κ → Nat)

/-- The map after the event. -/
def tableStep [DecidableEq κ] (ttl : Nat) (m : GoMap κ PendingEntry) : TableEv κ → GoMap κ PendingEntry
  | .put _ k v => m.insert k v
  | .del _ k => m.erase k
  | .clean _ now => (cleanMap ttl now m).1

end Resmix.Rrpc
