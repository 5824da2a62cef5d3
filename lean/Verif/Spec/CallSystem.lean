import Verif.Model.CallSystem
import Verif.Spec.Collector
set_option autoImplicit false
/-
What is assumed about a system of robust calls, and what is promised.
-/
namespace Resmix.Rrpc.CallSystem
variable {μ : Type} {K m n : Nat}

/-- An honest call: made and signed by `RobustCall` (rrpc/client.go:245-265) with the client's key for a server of the network, a registered
method and arguments of less than 4 GiB. -/
structure HonestCall (cfg : Config μ K m n) (c : CallSpec cfg.S.Sk m n) : Prop where
  sender : c.note.senderID = cfg.S.pub c.key
  unsigned : c.note.senderMerkleProof = none ∧ c.note.receiverMerkleProof = none
  size : c.args.length < 2 ^ 32
  made : ∃ ps, RequestIntoRobust cfg.C false cfg.net c.method c.note c.args (.ok ps) ∧ signRobust cfg.S cfg.H cfg.cod c.key ps = .ok (List.ofFn c.parcels)
  method : ∃ mm, cfg.lookup c.server c.method = .ok mm
  receiver : c.note.receiverID = cfg.S.pub (cfg.key c.server)
  address : cfg.net.serverAddresses[c.server]? = some (cfg.net.getHostname c.note.receiverID)

/-- An honest system: `n` servers with different addresses, more than half of the parcels needed (C53), different call ids. -/
structure Honest (cfg : Config μ K m n) : Prop where
  code : NewCoordinator cfg.net (.ok cfg.C)
  servers : cfg.net.serverAddresses.length = n
  addresses : cfg.net.serverAddresses.Nodup
  tau : 1 ≤ cfg.net.tau
  majority : (n : Int) < 2 * cfg.net.minimalRelayedParcels
  small : 2 * n ≤ 2 ^ 64
  window : 0 < cfg.window
  uuids : ∀ k k', cfg.uuid k = cfg.uuid k' → k = k'
  calls : ∀ k, HonestCall cfg (cfg.calls k)

/-- Replies are shorter than 4 GiB and error codes are not OK. -/
def Behaviour.Proper (h : Behaviour μ) : Prop :=
  ∀ mm u args, match h mm u args with
    | .ok b => b.length < 2 ^ 32
    | .error e => (errToRpcErr e).code ≠ 0

/-- Known defects that are excluded: a cleanup of the verifier between the two checks of a parcel (C74), a used reply buffer (C55), and
handlers that are not proper (C72). -/
def Event.Proper : Event μ K m n → Prop
  | .check _ _ _ cleanup => cleanup = false
  | .finish _ _ h buf => buf = [] ∧ h.Proper
  | _ => True

/-- The steps goroutines and streams make by themselves (handlers included): all but new calls, cancellations and the two kinds of
cleanups. -/
def Event.Own : Event μ K m n → Prop
  | .begin _ => False
  | .tick _ _ => False
  | .clean _ _ => False
  | .cancel _ => False
  | _ => True

/-- Nothing proper is left to do. -/
def AtRest (cfg : Config μ K m n) (s : State μ K m n) : Prop := ∀ e s', e.Own → e.Proper → ¬ Step cfg s e s'

/-- The relays that ignored the response for call `k`. -/
def ignoredBy (s : State μ K m n) (k : Fin K) : Finset (Fin n) := Finset.univ.filter fun r => ∃ a ∈ s.answers (.dropped r), a.call = k

/-- The tasks the server of call `k` has started for it so far. -/
def tasksFor (cfg : Config μ K m n) (s : State μ K m n) (k : Fin K) : List (CTask μ) :=
  runsOf (cfg.uuid k) (collector cfg.net (cfg.lookup (cfg.calls k).server) (s.history (cfg.calls k).server))

/-- What the caller of `RobustCall` gets: the reply bytes or the error's status. -/
def outcomeOf : Except SvcErr Bytes → Except CallErr Bytes
  | .ok b => .ok b
  | .error e => .error (.status (errToRpcErr e))

/-- Call `k` has returned with outcome `res` (whatever the order of the decoding workers). -/
def Returned (cfg : Config μ K m n) (s : State μ K m n) (k : Fin K) (res : Except CallErr Bytes) : Prop :=
  ∀ r, RobustReply cfg.C false cfg.net ((s.taken k).map Answer.ev ++ if s.cancelled k then [.done] else []) r ↔ r = some res

end Resmix.Rrpc.CallSystem

namespace Resmix.Rrpc.CallSystem
variable {μ : Type} {K m n : Nat}

/-- No relay routes the response to call `k` while its handler is still between passing the call's parcel on and recording the client
(rrpc/relay.go:141-158), and no relay's cleanup strikes the record. -/
def CalmStep (cfg : Config μ K m n) (k : Fin K) (s : State μ K m n) : Event μ K m n → Prop
  | .route r => ∀ a rest, s.answers (.incoming r) = a :: rest → a.call = k → ∀ c, s.storing r c ≠ some (cfg.uuid k)
  | .clean _ u => u ≠ cfg.uuid k
  | _ => True

/-- A sequence of such steps. -/
inductive CalmRun (cfg : Config μ K m n) (k : Fin K) : State μ K m n → List (Event μ K m n) → State μ K m n → Prop
  | nil (s : State μ K m n) : CalmRun cfg k s [] s
  | cons {s s' s'' : State μ K m n} {e : Event μ K m n} {es : List (Event μ K m n)} (h : Step cfg s e s') (hc : CalmStep cfg k s e) (t : CalmRun cfg k s' es s'') :
      CalmRun cfg k s (e :: es) s''

/-- The server has run the registered method of call `k` exactly once, on the call's id and arguments, with this behaviour; no other goroutine
was started for the call. -/
def ServedOnce (cfg : Config μ K m n) (s : State μ K m n) (k : Fin K) (mm : μ) (b : Behaviour μ) : Prop :=
  cfg.lookup (cfg.calls k).server (cfg.calls k).method = .ok mm ∧
  ∃ t, tasksFor cfg s k = [t] ∧ Invokes cfg.C t mm (cfg.uuid k) (cfg.calls k).args ∧ ∃ r0, s.jobs k r0 = some ⟨t, some b⟩ ∧ ∀ r, r ≠ r0 → s.jobs k r = none

/-- Call `k` has been made and returned what the method did. -/
def Succeeded (cfg : Config μ K m n) (s : State μ K m n) (k : Fin K) : Prop :=
  ∃ mm b, ServedOnce cfg s k mm b ∧ b.Proper ∧ Returned cfg s k (outcomeOf (b mm (cfg.uuid k) (cfg.calls k).args))

end Resmix.Rrpc.CallSystem

namespace Resmix.Rrpc.CallSystem
variable {μ : Type} {K m n : Nat}

/-- Which relay makes the step; the steps of clients, servers and callers are not a relay's. -/
def Event.relay : Event μ K m n → Option (Fin n)
  | .moveP (.up _ r) => some r
  | .forward r _ => some r
  | .store r _ => some r
  | .moveP (.toSend r _) => some r
  | .moveA (.wire _ r) => some r
  | .moveA (.holding r _) => some r
  | .route r => some r
  | .moveA (.routing r _) => some r
  | .moveA (.resps r _) => some r
  | .clean r _ => some r
  | _ => none

/-- The step is not one of a relay in `D`. -/
def Event.NotBy (D : Finset (Fin n)) (e : Event μ K m n) : Prop := ∀ r, e.relay = some r → r ∉ D

/-- Nothing proper is left to do for anybody but the relays in `D`, which do nothing any more. -/
def AtRestBut (cfg : Config μ K m n) (D : Finset (Fin n)) (s : State μ K m n) : Prop := ∀ e s', e.Own → e.Proper → e.NotBy D → ¬ Step cfg s e s'

/-- No client has made more than 100 calls and no server has been called more than 100 times (the capacity of the channels to a relay; more
calls may get stuck, C89). -/
def FewCalls (cfg : Config μ K m n) (s : State μ K m n) : Prop :=
  (∀ c, (Finset.univ.filter fun k => s.begun k = true ∧ (cfg.calls k).client = c).card ≤ 100) ∧
  (∀ d, (Finset.univ.filter fun k => s.begun k = true ∧ (cfg.calls k).server = d).card ≤ 100)

end Resmix.Rrpc.CallSystem
