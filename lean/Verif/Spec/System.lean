import Verif.Model.System
import Verif.Spec.Mixer
import Verif.Spec.Onion
set_option autoImplicit false
/-
Vocabulary for the end-to-end properties (C64, C87, C88): what the clients of one round do, read off their calls.
-/
namespace Resmix.System
open Resmix.Mixer (onionsFor)

/-- The onions one event carries from a client to mix `n` of round `r`. -/
def sentBy (r : Nat) (n : Str) : Event → List Bytes
  | .client _ (.addMessages r' ms) => if r' = r then onionsFor n ms else []
  | _ => []

/-- The onions the clients sent to mix `n` of round `r`. -/
def clientOnions (evs : List Event) (r : Nat) (n : Str) : List Bytes := evs.flatMap (sentBy r n)

/-- One submission of a client: a plaintext, the chain chosen for it, and the onion made from it. -/
structure Submission where
  chain : Nat
  msg : Bytes
  onion : Bytes
deriving DecidableEq

/-- The submissions over chain `c`. -/
def onChain (subs : List Submission) (c : Nat) : List Submission := subs.filter fun x => x.chain = c

def isOpening (h : Str) (r : Nat) : Event → Bool
  | .client h' (.newRound r' _ _) => h' = h && r' = r
  | _ => false

/-- The clients of round `r` behave: every server is asked at most once to open the round, with the number of submissions of each chain
as the workload of the chain's first mix; clients send onions to first-layer mixes only, to each of them (a part of) the onions of
its chain, and no empty batches except to mixes that expect nothing. Other rounds are not restricted. -/
structure Clients (t : Topology) (subs : List Submission) (r : Nat) (evs : List Event) : Prop where
  once : ∀ h, (evs.filter (isOpening h r)).length ≤ 1
  loads : ∀ h ls order, .client h (.newRound r ls order) ∈ evs → (∀ e ∈ ls, e.2 < 2 ^ 63) ∧
    ∀ c first, t.mixAt 0 c = some first → ls.lookup first.name = some (onChain subs c).length
  first : ∀ h ms, .client h (.addMessages r ms) ∈ evs → ∀ m ∈ ms, ∃ c first, t.mixAt 0 c = some first ∧
    m.logicalReceiver = first.name ∧ (m.messages = [] → onChain subs c = [])
  onions : ∀ c first, t.mixAt 0 c = some first → (clientOnions evs r first.name).Subperm ((onChain subs c).map (·.onion))

/-- The clients of round `r` keep to the form of the protocol: nobody ends the round, and every batch sent to a host is for a first-layer
mix of that host, with both sender fields set to GENESIS (mixer.go:166). -/
structure Orderly (t : Topology) (r : Nat) (evs : List Event) : Prop where
  noEnd : ∀ h, .client h (.endRound r) ∉ evs
  form : ∀ h ms, .client h (.addMessages r ms) ∈ evs → ∀ m ∈ ms, ∃ c first, t.mixAt 0 c = some first ∧
    m.logicalReceiver = first.name ∧ first.hostname = h ∧ m.physicalSender = genesisName ∧ m.logicalSender = genesisName

/-- In state `s`, event `e` loses no request of round `r`: a request of a client or of another server finds the round open at its host
(it is not answered with NotFound), and no request of the round is dropped by the network. -/
def Keeps (r : Nat) (s : State) : Event → Prop
  | .client h (.addMessages r' _) => r' = r → (s.servers h).rounds.lookup r ≠ none
  | .deliver k => ∀ rq, s.net[k]? = some rq → rq.round = r → (s.servers rq.host).rounds.lookup r ≠ none
  | .drop k => ∀ rq, s.net[k]? = some rq → rq.round ≠ r
  | _ => True

/-- An execution that loses no request of round `r`. -/
inductive LosslessRun (c : Config) (r : Nat) (s0 : State) : List Event → State → Prop
  | nil : LosslessRun c r s0 [] s0
  | snoc {evs : List Event} {s s' : State} {e : Event} : LosslessRun c r s0 evs s → Keeps r s e → Step c s e s' → LosslessRun c r s0 (evs ++ [e]) s'

/-- Every submission opens along its chain with the keys of round `r`. -/
def Opens (c : Config) (r L : Nat) (subs : List Submission) : Prop :=
  ∀ x ∈ subs, Onion.Peels c.topo (fun host o => (c.env host r).decrypt o) L x.chain x.msg 0 x.onion

/-- In every round all clients keep to the protocol. -/
def AllOrderly (c : Config) (L : Nat) (evs : List Event) : Prop :=
  ∀ r, r < 2 ^ 32 → ∃ subs, Opens c r L subs ∧ Clients c.topo subs r evs ∧ Orderly c.topo r evs

/-- A step of the system itself: not a client's call, and no request is lost. -/
def Own (e : Event) : Prop := (∀ h a, e ≠ .client h a) ∧ ∀ k, e ≠ .drop k

/-- Every server has dialled every server. -/
def Connected (c : Config) (hosts : List Str) : Prop := ∀ h ∈ hosts, ∀ h' ∈ hosts, h' ∈ c.connected h

/-- Nothing is left to do: no goroutine of a server and no sender can make a step, and no request is in flight that could be delivered. -/
def AtRest (c : Config) (s : State) : Prop := ∀ e s', Step c s e s' → (∃ h a, e = .client h a) ∨ ∃ k, e = .drop k

end Resmix.System
