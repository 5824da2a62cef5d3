import Verif.Model.CallSystem
import Verif.Model.Relay
import Verif.Model.RelayConn
set_option autoImplicit false
/-
What a process of the whole system of robust calls (Model/CallSystem) does, in terms of the model of this process alone.
-/
namespace Resmix.Rrpc.CallSystem
variable {μ : Type} {K m n : Nat}

/-- `evs` is what a run does in the eyes of a component; `proj s e` is what the component sees of event `e` in state `s`. -/
inductive Trace (cfg : Config μ K m n) {β : Type} (proj : State μ K m n → Event μ K m n → List β) : State μ K m n → List (Event μ K m n) → State μ K m n → List β → Prop
  | nil (s : State μ K m n) : Trace cfg proj s [] s []
  | cons {s s' s'' : State μ K m n} {e : Event μ K m n} {es : List (Event μ K m n)} {evs : List β} (h : Step cfg s e s') (t : Trace cfg proj s' es s'' evs) :
      Trace cfg proj s (e :: es) s'' (proj s e ++ evs)

/-- What a relay sends to a client for a response (rrpc/relay.go:87-90). -/
def sent (a : Ans K n) : RelayStreamResponse :=
  { relayStreamError := none, response := some a.msg, uuid := (a.msg.note.map (·.calluuid)).getD [] }

/-- What relay `r` sees: requests it forwards and stores, the responses it takes and passes on, its cleanup. -/
def relayEv (cfg : Config μ K m n) (r : Fin n) (s : State μ K m n) : Event μ K m n → List Relay.Ev
  | .forward r' c => if r' = r then (s.parcels (.handling r c)).head?.toList.map fun x => .forward c (cfg.parcel x).note.calluuid else []
  | .store r' c => if r' = r then [.store c] else []
  | .route r' => if r' = r then (s.answers (.incoming r)).head?.toList.map fun a => .incoming a.msg else []
  | .moveA (.routing r' _) => if r' = r then [.route] else []
  | .moveA (.resps r' c) => if r' = r then [.send c] else []
  | .clean r' u => if r' = r then [.clean u] else []
  | _ => []

/-- State `t` of a relay alone is what state `s` of the system is at relay `r`; stream `c` is the one of client `c`. -/
structure RelayView (r : Fin n) (s : State μ K m n) (t : Relay.State) : Prop where
  size : t.streams.length = m
  stream : ∀ c : Fin m, ∃ x, t.streams[(c : Nat)]? = some x ∧ x.alive = true ∧ x.queue = (s.answers (.resps r c)).map sent ∧ x.forwarding = s.storing r c ∧
    (s.answers (.wireC r c)).map sent <:+ x.delivered
  pending : ∀ u, t.pending.lookup u = ((s.pending r).lookup u).map Fin.val
  routing : (t.routing = none ∧ ∀ c, s.answers (.routing r c) = []) ∨
    ∃ (c : Fin m) (a : Ans K n), t.routing = some ((c : Nat), sent a) ∧ s.answers (.routing r c) = [a] ∧ ∀ c', c' ≠ c → s.answers (.routing r c') = []
  alive : s.crashed = false → t.crashed = false

/-- State `t` of a client alone (Model/RelayConn) is what state `s` of the system is at client `c`, whose calls, in the order in which they were made, are `order`. -/
structure ClientView (cfg : Config μ K m n) (c : Fin m) (order : List (Fin K)) (s : State μ K m n) (t : RelayConn.State) : Prop where
  nodup : order.Nodup
  made : ∀ k, k ∈ order ↔ (s.begun k = true ∧ (cfg.calls k).client = c)
  relays : t.conns.length = n
  size : t.calls.length = order.length
  call : ∀ (i : Nat) (k : Fin K), order[i]? = some k → ∃ x, t.calls[i]? = some x ∧ x.uuid = cfg.uuid k ∧ x.queue = (s.answers (.queue k)).map sent ∧
    x.taken = (s.answers (.taken k)).map sent ∧ x.reading = true ∧ x.asked ≤ n ∧ s.parcels (.ask k) = ((List.finRange n).drop x.asked).map fun r => (k, r)
  conn : ∀ r : Fin n, ∃ y, t.conns[(r : Nat)]? = some y ∧ y.cleaner = .idle ∧ (∀ u, y.live.lookup u = ((s.live c r).lookup u).map order.idxOf) ∧
    ((y.recv = none ∧ ∀ k, s.answers (.recv c r k) = []) ∨
      ∃ (k : Fin K) (a : Ans K n), k ∈ order ∧ y.recv = some (order.idxOf k, sent a) ∧ s.answers (.recv c r k) = [a] ∧ ∀ k', k' ≠ k → s.answers (.recv c r k') = [])

end Resmix.Rrpc.CallSystem
