import Verif.Model.System
import Verif.Model.DirectSystem
set_option autoImplicit false
/-
The whole system together with its call layer: the mix servers (Model/Server), the senders of their rounds, and under them the connections for direct
calls (Model/DirectSystem) with the goroutines of client and server, their channels and streams. In contrast to Model/System, a sender issues the calls of a
batch one after the other and waits for each of them (sender.go:48-54), a connection carries the calls of all rounds, and the server of a connection takes
the next request only when the AddMessages handler for the last one has returned (rrpc/server.go:115-166). Everything interleaves arbitrarily.
Simplifications: the note of a request is checked when the handler is started and, with the same outcome for requests of the client's own connection
(C106), again in the step that sends the response; when the process of one side has crashed, the other side's streams stand still instead of failing.
-/
namespace Resmix.Stack
open Resmix.Mixer (Messages MixOutput)
open Resmix.Sender
open Resmix.Rrpc (SvcErr)
open Resmix.Rrpc.DirectSystem (serveOne)
variable {ζ μ : Type}

/-- What does not change: the system, for every two hosts the connection of the first to the second, how AddMessagesRequest values are written to bytes and read
from them (mixnet.pb.go), the bytes of an AddMessagesResponse, and how an error of the handler looks in the call layer. -/
structure Config (ζ μ : Type) where
  sys : System.Config
  link : Str → Str → Rrpc.DirectSystem.Config ζ μ
  enc : Nat → List Messages → Bytes
  dec : Bytes → Option (Nat × List Messages)
  ack : Bytes
  svcErr : Fail → SvcErr

/-- What the AddMessages handler started for the request being served does: it works, or it has returned. -/
inductive Handling
  | running
  | done (result : Except SvcErr (Except Str Bytes))

/-- Where the worker goroutine of a sender is (sender.go:43-55, rrpc/client.go:216-240): between two calls; it has made the call with this number to this host;
has put it into the send channel; waits for its result. -/
inductive Stage
  | idle
  | made (host : Str) (call : Nat)
  | queued (host : Str) (call : Nat)
  | waiting (host : Str) (call : Nat)

/-- sender.go:43-55: the worker of a round object: the calls of the batch still to be made; `doomed`: after them it panics. -/
structure Worker where
  todo : List Request
  doomed : Bool
  stage : Stage

/-- Who called AddMessages: a client (`none`), or the sender of a host. -/
abbrev Owner := Option Str

/-- The servers; for every two hosts the connection of the first to the second, and the handler the second runs for it; by host and round object the sender's
worker, and whose AddMessages call is inside the object (mixer.go:191-210); by host, in the order of `waiting`, whose calls wait to enter. -/
structure State (ζ μ : Type) where
  servers : Str → Server.State
  conns : Str → Str → Rrpc.DirectSystem.State ζ μ
  handling : Str → Str → Option Handling
  worker : Str → Nat → Worker
  owners : Str → List Owner
  inside : Str → Nat → Option Owner

/-- Replace one server. -/
def State.setServer (s : State ζ μ) (h : Str) (srv : Server.State) : State ζ μ :=
  { s with servers := fun h' => if h' = h then srv else s.servers h' }

/-- A function of two arguments changed at one place. -/
def upd2 {A B V : Type} [DecidableEq A] [DecidableEq B] (f : A → B → V) (a : A) (b : B) (v : V) : A → B → V :=
  fun a' b' => if a' = a ∧ b' = b then v else f a' b'

/-- A function changed at one place. -/
def upd {A V : Type} [DecidableEq A] (f : A → V) (a : A) (v : V) : A → V := fun a' => if a' = a then v else f a'

/-- Everything freshly started. -/
def init (conn : Str → Bool) : State ζ μ :=
  { servers := fun h => Server.init (conn h), conns := fun _ _ => Rrpc.DirectSystem.init, handling := fun _ _ => none
    worker := fun _ _ => ⟨[], false, .idle⟩, owners := fun _ => [], inside := fun _ _ => none }

/-- What can happen. -/
inductive Event (ζ μ : Type)
  /-- a client calls host `h` -/
  | client (h : Str) (a : Server.Action)
  /-- a waiting AddMessages handler of host `h` enters its round object (mixer.go:192) -/
  | enter (h : Str) (k : Nat)
  /-- a goroutine of round object `i` of host `h` makes a step -/
  | work (h : Str) (i : Nat) (b : Mixer.Action)
  /-- the sender of round object `i` of host `h` takes a batch (sender.go:44) -/
  | take (h : Str) (i : Nat)
  /-- it panics (sender.go:46-51) -/
  | panic (h : Str) (i : Nat)
  /-- it makes its next call (sender.go:49-51, rrpc/client.go:225-236) -/
  | call (h : Str) (i : Nat) (now : Nat)
  /-- it puts the call into the send channel (rrpc/client.go:237) -/
  | enqueue (h : Str) (i : Nat)
  /-- it begins to wait (rrpc/client.go:222) -/
  | await (h : Str) (i : Nat)
  /-- its call returns; errors are only logged (sender.go:51-53) -/
  | ret (h : Str) (i : Nat)
  /-- a goroutine of the connection of `h` to `h'` makes a step -/
  | conn (h h' : Str) (e : Rrpc.DirectSystem.Event ζ μ)
  /-- `h'` starts the handler for a request of `h` (rrpc/server.go:121-143) -/
  | start (h h' : Str) (cache : Rrpc.Cache)
  /-- `h'` sends the response (rrpc/server.go:145-165) -/
  | serve (h h' : Str) (cache : Rrpc.Cache)

/-- The steps connections make by themselves here: those of the client's goroutines, and receiving at the server. -/
def Inner : Rrpc.DirectSystem.Event ζ μ → Bool
  | .call _ _ _ _ => false
  | .enqueue _ => false
  | .await _ => false
  | .serve _ _ => false
  | _ => true

/-- The process that makes the step. -/
def actor (h h' : Str) : Rrpc.DirectSystem.Event ζ μ → Str
  | .recv => h'
  | _ => h

/-- The waiting calls after a call of AddMessages by `o`, with response `resp` so far (Model/Server: `.pending` means that the round was found). -/
def admit (a : Server.Action) (resp : Server.Resp) (o : Owner) (l : List Owner) : List Owner :=
  match a, resp with
  | .addMessages _ _, .pending _ => l ++ [o]
  | _, _ => l

/-- server.go:174-184: where the handler is after it has looked up the round. -/
def handlingOf (c : Config ζ μ) : Server.Resp → Handling
  | .pending _ => .running
  | .fail e => .done (.error (c.svcErr e))
  | _ => .done (.ok (.ok c.ack))

/-- server.go:183: the call of owner `o` at host `h` returns. -/
def release (c : Config ζ μ) (f : Str → Str → Option Handling) (h : Str) (o : Option Owner) : Str → Str → Option Handling :=
  match o with
  | some (some h0) => upd2 f h0 h (some (.done (.ok (.ok c.ack))))
  | _ => f

/-- One step. Nothing happens in a process that has crashed. -/
inductive Step (c : Config ζ μ) : State ζ μ → Event ζ μ → State ζ μ → Prop
  /-- mixnet.proto: the calls of Model/System -/
  | client {s : State ζ μ} {h : Str} {a : Server.Action} {srv : Server.State} {resp : Server.Resp} (ha : System.ClientCall c.sys.topo a)
      (hs : Server.step (c.sys.server h) (s.servers h) a = some (srv, resp)) :
      Step c s (.client h a) { s.setServer h srv with owners := upd s.owners h (admit a resp none (s.owners h)) }
  /-- server.go:181, mixer.go:192 -/
  | enter {s : State ζ μ} {h : Str} {k i : Nat} {ms : List Messages} {o : Owner} {srv : Server.State} {resp : Server.Resp}
      (hw : (s.servers h).waiting[k]? = some (i, ms)) (ho : (s.owners h)[k]? = some o)
      (hs : Server.step (c.sys.server h) (s.servers h) (.enter k) = some (srv, resp)) :
      Step c s (.enter h k) { s.setServer h srv with owners := upd s.owners h ((s.owners h).eraseIdx k), inside := upd2 s.inside h i (some o) }
  /-- mixer.go: a step after which the same AddMessages call, or none, is inside -/
  | work {s : State ζ μ} {h : Str} {i r : Nat} {b : Mixer.Action} {m m' : Mixer.State} {srv : Server.State} {resp : Server.Resp} (hb : b ≠ .recv)
      (hm : (s.servers h).objs[i]? = some (r, m)) (hs : Server.step (c.sys.server h) (s.servers h) (.work i b) = some (srv, resp))
      (hm' : srv.objs[i]? = some (r, m')) (hin : m.holder = none ∨ m'.holder ≠ none) :
      Step c s (.work h i b) (s.setServer h srv)
  /-- mixer.go:209-210, server.go:183: the AddMessages call inside returns -/
  | leave {s : State ζ μ} {h : Str} {i r : Nat} {b : Mixer.Action} {m m' : Mixer.State} {srv : Server.State} {resp : Server.Resp} (hb : b ≠ .recv)
      (hm : (s.servers h).objs[i]? = some (r, m)) (hs : Server.step (c.sys.server h) (s.servers h) (.work i b) = some (srv, resp))
      (hm' : srv.objs[i]? = some (r, m')) (hin : m.holder ≠ none) (hout : m'.holder = none) :
      Step c s (.work h i b) { s.setServer h srv with inside := upd2 s.inside h i none, handling := release c s.handling h (s.inside h i) }
  /-- sender.go:44-50; the requests are made when their turn comes, from the batch and the topology, which do not change -/
  | take {s : State ζ μ} {h : Str} {i r : Nat} {m : Mixer.State} {out : MixOutput} {rest : List MixOutput} {srv : Server.State} {resp : Server.Resp}
      {rqs : List Request} (hw : s.worker h i = ⟨[], false, .idle⟩) (hm : (s.servers h).objs[i]? = some (r, m)) (ho : m.output = out :: rest)
      (hs : Server.step (c.sys.server h) (s.servers h) (.work i .recv) = some (srv, resp)) (hb : SendBatch (c.sys.sender h r) out (.ok rqs)) :
      Step c s (.take h i) { s.setServer h srv with worker := upd2 s.worker h i ⟨rqs, false, .idle⟩ }
  /-- the same for a batch that makes the worker panic after the calls `rqs` -/
  | takeBad {s : State ζ μ} {h : Str} {i r : Nat} {m : Mixer.State} {out : MixOutput} {rest : List MixOutput} {srv : Server.State} {resp : Server.Resp}
      {rqs : List Request} (hw : s.worker h i = ⟨[], false, .idle⟩) (hm : (s.servers h).objs[i]? = some (r, m)) (ho : m.output = out :: rest)
      (hs : Server.step (c.sys.server h) (s.servers h) (.work i .recv) = some (srv, resp)) (hb : System.SendPanics (c.sys.sender h r) out rqs) :
      Step c s (.take h i) { s.setServer h srv with worker := upd2 s.worker h i ⟨rqs, true, .idle⟩ }
  | panic {s : State ζ μ} {h : Str} {i : Nat} (hc : (s.servers h).crashed = false) (hw : s.worker h i = ⟨[], true, .idle⟩) :
      Step c s (.panic h i) (s.setServer h { s.servers h with crashed := true })
  /-- sender.go:49-51, rrpc/client.go:225-236 -/
  | call {s : State ζ μ} {h : Str} {i now : Nat} {rq : Request} {rest : List Request} {d : Bool} {t : Rrpc.DirectSystem.State ζ μ}
      (hc : (s.servers h).crashed = false) (hw : s.worker h i = ⟨rq :: rest, d, .idle⟩)
      (hs : Rrpc.DirectSystem.step (c.link h rq.host) (s.conns h rq.host) (.call rq.uuid now rq.method (c.enc rq.round rq.messages)) = some t) :
      Step c s (.call h i now) { s with conns := upd2 s.conns h rq.host t
                                        worker := upd2 s.worker h i ⟨rest, d, .made rq.host (s.conns h rq.host).client.calls.length⟩ }
  /-- rrpc/client.go:237 -/
  | enqueue {s : State ζ μ} {h h' : Str} {i j : Nat} {todo : List Request} {d : Bool} {t : Rrpc.DirectSystem.State ζ μ}
      (hc : (s.servers h).crashed = false) (hw : s.worker h i = ⟨todo, d, .made h' j⟩)
      (hs : Rrpc.DirectSystem.step (c.link h h') (s.conns h h') (.enqueue j) = some t) :
      Step c s (.enqueue h i) { s with conns := upd2 s.conns h h' t, worker := upd2 s.worker h i ⟨todo, d, .queued h' j⟩ }
  /-- rrpc/client.go:222 -/
  | await {s : State ζ μ} {h h' : Str} {i j : Nat} {todo : List Request} {d : Bool} {t : Rrpc.DirectSystem.State ζ μ}
      (hc : (s.servers h).crashed = false) (hw : s.worker h i = ⟨todo, d, .queued h' j⟩)
      (hs : Rrpc.DirectSystem.step (c.link h h') (s.conns h h') (.await j) = some t) :
      Step c s (.await h i) { s with conns := upd2 s.conns h h' t, worker := upd2 s.worker h i ⟨todo, d, .waiting h' j⟩ }
  /-- sender.go:51-54 -/
  | ret {s : State ζ μ} {h h' : Str} {i j : Nat} {todo : List Request} {d : Bool} {x : Rrpc.DirectClient.Call Rrpc.DirectSystem.Outcome}
      (hc : (s.servers h).crashed = false) (hw : s.worker h i = ⟨todo, d, .waiting h' j⟩)
      (hx : (s.conns h h').client.calls[j]? = some x) (hg : x.got ≠ none) :
      Step c s (.ret h i) { s with worker := upd2 s.worker h i ⟨todo, d, .idle⟩ }
  /-- Model/DirectSystem; a panic in the client's goroutines ends the process -/
  | conn {s : State ζ μ} {h h' : Str} {e : Rrpc.DirectSystem.Event ζ μ} {t : Rrpc.DirectSystem.State ζ μ} (he : Inner e = true)
      (hc : (s.servers (actor h h' e)).crashed = false) (hs : Rrpc.DirectSystem.step (c.link h h') (s.conns h h') e = some t) :
      Step c s (.conn h h' e) { s.setServer h { s.servers h with crashed := (s.servers h).crashed || t.client.crashed } with conns := upd2 s.conns h h' t }
  /-- rrpc/server.go:121-143, server.go:174-181: the request is accepted and the handler called -/
  | start {s : State ζ μ} {h h' : Str} {cache : Rrpc.Cache} {j : Nat} {q : Rrpc.DirectCallRequest} {o : ζ} {f : μ} {u : Str} {a : Bytes} {r : Nat}
      {ms : List Messages} {srv : Server.State} {resp : Server.Resp} (hq : (s.conns h h').serving = some (j, q)) (hn : s.handling h h' = none)
      (hv : (serveOne (c.link h h') (fun _ _ _ _ => .ok (.ok c.ack)) cache q).1 = [(o, f, u, a)]) (hd : c.dec a = some (r, ms))
      (hs : Server.step (c.sys.server h') (s.servers h') (.addMessages r ms) = some (srv, resp)) :
      Step c s (.start h h' cache) { s.setServer h' srv with
        owners := upd s.owners h' (admit (.addMessages r ms) resp (some h) (s.owners h'))
        handling := upd2 s.handling h h' (some (handlingOf c resp)) }
  /-- mixnet.pb.go:856-860, rrpc/server.go:96-100: the arguments cannot be decoded -/
  | startBad {s : State ζ μ} {h h' : Str} {cache : Rrpc.Cache} {j : Nat} {q : Rrpc.DirectCallRequest} {o : ζ} {f : μ} {u : Str} {a : Bytes}
      (hc : (s.servers h').crashed = false) (hq : (s.conns h h').serving = some (j, q)) (hn : s.handling h h' = none)
      (hv : (serveOne (c.link h h') (fun _ _ _ _ => .ok (.ok c.ack)) cache q).1 = [(o, f, u, a)]) (hd : c.dec a = none) :
      Step c s (.start h h' cache) { s with handling := upd2 s.handling h h' (some (.done (.error (c.svcErr (.err .internal "decode"))))) }
  /-- rrpc/server.go:145-165: the handler has returned -/
  | serve {s : State ζ μ} {h h' : Str} {cache : Rrpc.Cache} {res : Except SvcErr (Except Str Bytes)} {t : Rrpc.DirectSystem.State ζ μ}
      (hc : (s.servers h').crashed = false) (hn : s.handling h h' = some (.done res))
      (hs : Rrpc.DirectSystem.step (c.link h h') (s.conns h h') (.serve (fun _ _ _ _ => res) cache) = some t) :
      Step c s (.serve h h' cache) { s with conns := upd2 s.conns h h' t, handling := upd2 s.handling h h' none }
  /-- rrpc/server.go:121-140: the request is not accepted, the stream ends -/
  | reject {s : State ζ μ} {h h' : Str} {cache : Rrpc.Cache} {j : Nat} {q : Rrpc.DirectCallRequest} {t : Rrpc.DirectSystem.State ζ μ}
      (hc : (s.servers h').crashed = false) (hq : (s.conns h h').serving = some (j, q)) (hn : s.handling h h' = none)
      (hv : (serveOne (c.link h h') (fun _ _ _ _ => .ok (.ok c.ack)) cache q).1 = [])
      (hs : Rrpc.DirectSystem.step (c.link h h') (s.conns h h') (.serve (fun _ _ _ _ => .ok (.ok c.ack)) cache) = some t) :
      Step c s (.serve h h' cache) { s with conns := upd2 s.conns h h' t }

/-- An execution. -/
inductive Run (c : Config ζ μ) (s0 : State ζ μ) : List (Event ζ μ) → State ζ μ → Prop
  | nil : Run c s0 [] s0
  | snoc {evs : List (Event ζ μ)} {s s' : State ζ μ} {e : Event ζ μ} : Run c s0 evs s → Step c s e s' → Run c s0 (evs ++ [e]) s'

/-- server.go:55-74: a GetMessages call for mix `n` of round `r` at host `h` that has reached the round object returns `out`. -/
def Returns (s : State ζ μ) (h : Str) (r : Nat) (n : Str) (out : List Bytes) : Prop :=
  (s.servers h).crashed = false ∧ ∃ (i : Nat) (m : Mixer.State), (s.servers h).objs[i]? = some (r, m) ∧ Mixer.getMixOutputs m n = some (.ok out)

end Resmix.Stack
