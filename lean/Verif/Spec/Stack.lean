import Verif.Model.Stack
import Verif.Spec.System
set_option autoImplicit false
/-
Vocabulary for the system with its call layer (C112, C113).
-/
namespace Resmix.Stack
open Resmix.Sender
variable {ζ μ : Type}

/-- The clients' calls, as events of Model/System, for which Spec/System says what it means that clients keep to the protocol. -/
def clientCalls : List (Event ζ μ) → List System.Event
  | [] => []
  | .client h a :: evs => .client h a :: clientCalls evs
  | _ :: evs => clientCalls evs

/-- What the call layer is assumed to offer: requests can be encoded, AddMessages is registered at every server, streams can carry a message. -/
structure Serves (c : Config ζ μ) : Prop where
  codec : ∀ r ms, r < 2 ^ 32 → c.dec (c.enc r ms) = some (r, ms)
  method : ∀ h h', ∃ x, (c.link h h').svcs.get addMessagesMethod = .ok x
  window : ∀ h h', 0 < (c.link h h').window

/-- The connections are used properly: a sender uses a call id again only when the earlier calls with it have returned (C107), and no cleanup finds a call older
than the time-out. -/
def Proper (c : Config ζ μ) (s : State ζ μ) : Event ζ μ → Prop
  | .call h i _ => ∀ rq rest d, s.worker h i = ⟨rq :: rest, d, .idle⟩ → ∀ x ∈ (s.conns h rq.host).client.calls, x.uuid = rq.uuid → x.got ≠ none
  | .conn h h' (.visit u now) => ∀ (j : Nat) (x : Rrpc.DirectClient.Call Rrpc.DirectSystem.Outcome), (s.conns h h').client.waiting.lookup u = some j →
      (s.conns h h').client.calls[j]? = some x → now - x.start < (c.link h h').ttl
  | _ => True

/-- An execution in which the connections are used properly. -/
inductive ProperRun (c : Config ζ μ) (s0 : State ζ μ) : List (Event ζ μ) → State ζ μ → Prop
  | nil : ProperRun c s0 [] s0
  | snoc {evs : List (Event ζ μ)} {s s' : State ζ μ} {e : Event ζ μ} : ProperRun c s0 evs s → Proper c s e → Step c s e s' → ProperRun c s0 (evs ++ [e]) s'

/-- In state `s`, event `e` loses no request of round `r`: a request finds the round open (it is not answered with NotFound). -/
def Keeps (c : Config ζ μ) (r : Nat) (s : State ζ μ) : Event ζ μ → Prop
  | .client h (.addMessages r' _) => r' = r → (s.servers h).rounds.lookup r ≠ none
  | .start h h' _ => ∀ j q ms, (s.conns h h').serving = some (j, q) → c.dec q.payload = some (r, ms) → (s.servers h').rounds.lookup r ≠ none
  | _ => True

/-- A proper execution that loses no request of round `r`. -/
inductive LosslessRun (c : Config ζ μ) (r : Nat) (s0 : State ζ μ) : List (Event ζ μ) → State ζ μ → Prop
  | nil : LosslessRun c r s0 [] s0
  | snoc {evs : List (Event ζ μ)} {s s' : State ζ μ} {e : Event ζ μ} : LosslessRun c r s0 evs s → Proper c s e → Keeps c r s e → Step c s e s' →
      LosslessRun c r s0 (evs ++ [e]) s'

/-- Not a client's call. -/
def Quiet : Event ζ μ → Bool
  | .client _ _ => false
  | _ => true

/-- A step of the system itself: not a client's call, and not a look of the cleanup at a call. -/
def Own : Event ζ μ → Bool
  | .client _ _ => false
  | .conn _ _ (.visit _ _) => false
  | _ => true

/-- Nothing is left to do. -/
def AtRest (c : Config ζ μ) (s : State ζ μ) : Prop := ∀ e s', Own e = true → Proper c s e → ¬ Step c s e s'

/-- The senders of two rounds of a server do not call the same server at the same time, and no cleanup finds a call older than the time-out. -/
def Alone (c : Config ζ μ) (s : State ζ μ) : Event ζ μ → Prop
  | .call h i _ => ∀ rq rest d, s.worker h i = ⟨rq :: rest, d, .idle⟩ → ∀ i', i' ≠ i → ∀ j,
      (s.worker h i').stage ≠ .made rq.host j ∧ (s.worker h i').stage ≠ .queued rq.host j ∧ (s.worker h i').stage ≠ .waiting rq.host j
  | .conn h h' (.visit u now) => ∀ (j : Nat) (x : Rrpc.DirectClient.Call Rrpc.DirectSystem.Outcome), (s.conns h h').client.waiting.lookup u = some j →
      (s.conns h h').client.calls[j]? = some x → now - x.start < (c.link h h').ttl
  | _ => True

/-- No cleanup finds a call older than the time-out. -/
def Calm (c : Config ζ μ) (s : State ζ μ) : Event ζ μ → Prop
  | .conn h h' (.visit u now) => ∀ (j : Nat) (x : Rrpc.DirectClient.Call Rrpc.DirectSystem.Outcome), (s.conns h h').client.waiting.lookup u = some j →
      (s.conns h h').client.calls[j]? = some x → now - x.start < (c.link h h').ttl
  | _ => True

/-- An execution all of whose steps satisfy a condition on the state before the step and the event. -/
inductive RunWith (c : Config ζ μ) (P : State ζ μ → Event ζ μ → Prop) (s0 : State ζ μ) : List (Event ζ μ) → State ζ μ → Prop
  | nil : RunWith c P s0 [] s0
  | snoc {evs : List (Event ζ μ)} {s s' : State ζ μ} {e : Event ζ μ} : RunWith c P s0 evs s → P s e → Step c s e s' → RunWith c P s0 (evs ++ [e]) s'

/-- Only round `r` is opened. -/
def OnlyRound (r : Nat) (evs : List System.Event) : Prop := ∀ h r' loads order, .client h (.newRound r' loads order) ∈ evs → r' = r

end Resmix.Stack
