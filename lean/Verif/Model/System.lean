import Verif.Model.Server
import Verif.Model.Sender
set_option autoImplicit false
/-
Model of the whole system: all mix servers (Model/Server), the senders of their rounds (Model/Sender) and the requests between them.
Clients, servers, goroutines and the network interleave arbitrarily. A request between servers is an entry of `net` from the moment
the sender issues its DirectCall until the receiver's AddMessages handler has looked up the round; it may be lost, and requests overtake
each other freely. (The RPC layer's part is modelled separately: Model/DirectClient, Direct, Streams. Replays of a request, which that
layer does not exclude, C59, are not part of this model.)
-/
namespace Resmix.System
open Resmix.Mixer (Messages MixOutput)
open Resmix.Onion (groupOnionsByHostname)
open Resmix.Sender

/-- What does not change while the system runs: the topology (shared by all configurations), for every host and round the worker
environment of its round object (server.go:141-144), and the hosts a server has dialled (server.go:195-213). -/
structure Config where
  topo : Topology
  env : Str → Nat → Mixer.Env
  connected : Str → List Str

/-- The server with hostname `h`. -/
def Config.server (c : Config) (h : Str) : Server.Config := { topo := c.topo, host := h, env := c.env h }

/-- server.go:145-151, sender.go:89-101 `NewSender`: the sender of host `h` for round `r`. -/
def Config.sender (c : Config) (h : Str) (r : Nat) : MessageSender :=
  { round := r, topo := c.topo, connections := c.connected h, address := h }

/-- All servers (by hostname), and the requests in flight. -/
structure State where
  servers : Str → Server.State
  net : List Request

/-- Replace one server. -/
def State.setServer (s : State) (h : Str) (srv : Server.State) : State :=
  { s with servers := fun h' => if h' = h then srv else s.servers h' }

/-- What can happen. -/
inductive Event
  /-- a client calls host `h` (mixnet.proto: NewRound, EndRound, AddMessages, GetMessages) -/
  | client (h : Str) (a : Server.Action)
  /-- a goroutine of host `h` makes a step: a waiting AddMessages handler enters, or a goroutine of a round object works -/
  | work (h : Str) (a : Server.Action)
  /-- a sender worker of host `h` takes a batch of round object `i` and issues its calls (sender.go:44-55) -/
  | forward (h : Str) (i : Nat)
  /-- a request in flight reaches the AddMessages handler of its host -/
  | deliver (k : Nat)
  /-- a request in flight is lost (sender.go:52 only logs the error) -/
  | drop (k : Nat)

/-- The calls a client can make; round numbers are uint32 on the wire (mixnet.proto), and NewRound ranges over the map of mixes in
any order (server.go:133). -/
def ClientCall (t : Topology) : Server.Action → Prop
  | .newRound r _ order => r < 2 ^ 32 ∧ order.Perm t.mixes
  | .endRound r => r < 2 ^ 32
  | .addMessages r _ => r < 2 ^ 32
  | .getMessages r _ => r < 2 ^ 32
  | _ => False

/-- The steps of a server's own goroutines except those of the sender. -/
def Internal : Server.Action → Prop
  | .enter _ => True
  | .work _ a => a ≠ .recv
  | _ => False

/-- sender.go:44-55, the calls `rqs` issued for the batch `out` when the worker goroutine panics half-way (Model/Sender.SendBatch
records only the panic): it panicked while grouping, or after the hosts `p`. -/
def SendPanics (s : MessageSender) (out : MixOutput) (rqs : List Request) : Prop :=
  match groupOnionsByHostname out.onions s.topo with
  | .error _ => rqs = []
  | .ok g => ∃ order p q e, order.Perm g ∧ order = p ++ q ∧ SendHosts s out p (.ok rqs) ∧ SendHosts s out order (.error e)

/-- One step of the system. -/
inductive Step (c : Config) : State → Event → State → Prop
  | client {s : State} {h : Str} {a : Server.Action} {srv : Server.State} {resp : Server.Resp} (ha : ClientCall c.topo a)
      (hs : Server.step (c.server h) (s.servers h) a = some (srv, resp)) :
      Step c s (.client h a) (s.setServer h srv)
  | work {s : State} {h : Str} {a : Server.Action} {srv : Server.State} {resp : Server.Resp} (ha : Internal a)
      (hs : Server.step (c.server h) (s.servers h) a = some (srv, resp)) :
      Step c s (.work h a) (s.setServer h srv)
  | forward {s : State} {h : Str} {i r : Nat} {m : Mixer.State} {out : MixOutput} {rest : List MixOutput} {srv : Server.State}
      {resp : Server.Resp} {rqs : List Request} (hm : (s.servers h).objs[i]? = some (r, m)) (ho : m.output = out :: rest)
      (hs : Server.step (c.server h) (s.servers h) (.work i .recv) = some (srv, resp)) (hb : SendBatch (c.sender h r) out (.ok rqs)) :
      Step c s (.forward h i) { s.setServer h srv with net := s.net ++ rqs }
  | panic {s : State} {h : Str} {i r : Nat} {m : Mixer.State} {out : MixOutput} {rest : List MixOutput} {srv : Server.State}
      {resp : Server.Resp} {rqs : List Request} (hm : (s.servers h).objs[i]? = some (r, m)) (ho : m.output = out :: rest)
      (hs : Server.step (c.server h) (s.servers h) (.work i .recv) = some (srv, resp)) (hb : SendPanics (c.sender h r) out rqs) :
      Step c s (.forward h i) { s.setServer h { srv with crashed := true } with net := s.net ++ rqs }
  | deliver {s : State} {k : Nat} {rq : Request} {srv : Server.State} {resp : Server.Resp} (hk : s.net[k]? = some rq)
      (hs : Server.step (c.server rq.host) (s.servers rq.host) (.addMessages rq.round rq.messages) = some (srv, resp)) :
      Step c s (.deliver k) { s.setServer rq.host srv with net := s.net.eraseIdx k }
  | drop {s : State} {k : Nat} {rq : Request} (hk : s.net[k]? = some rq) : Step c s (.drop k) { s with net := s.net.eraseIdx k }

/-- An execution. -/
inductive Run (c : Config) (s0 : State) : List Event → State → Prop
  | nil : Run c s0 [] s0
  | snoc {evs : List Event} {s s' : State} {e : Event} : Run c s0 evs s → Step c s e s' → Run c s0 (evs ++ [e]) s'

/-- All servers freshly started (and connected or not). -/
def init (conn : Str → Bool) : State := { servers := fun h => Server.init (conn h), net := [] }

/-- server.go:55-74: a GetMessages call for mix `n` of round `r` at host `h` that has reached the round object returns `out`. (The call
may have been made before the round was ended or replaced, so any round object of round `r` counts.) -/
def Returns (s : State) (h : Str) (r : Nat) (n : Str) (out : List Bytes) : Prop :=
  (s.servers h).crashed = false ∧ ∃ (i : Nat) (m : Mixer.State), (s.servers h).objs[i]? = some (r, m) ∧ Mixer.getMixOutputs m n = some (.ok out)

end Resmix.System
