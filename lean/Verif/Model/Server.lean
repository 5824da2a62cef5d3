import Verif.Model.Mixer
set_option autoImplicit false
/-
Model of server.go: the round API of one mix server. Round objects (`Mixers`) live on a heap `objs`; the map `States` holds
references to them, as in Go. Handlers and the goroutines of all rounds interleave arbitrarily.
-/
namespace Resmix.Server
open Resmix.Mixer (Messages)

/-- Go conversion uint64 → int (server.go:115): two's complement on 64 bits. -/
def toInt (load : Nat) : Int := if load % 2^64 < 2^63 then (load % 2^64 : Nat) else (load % 2^64 : Nat) - (2^64 : Int)

/-- server.go:113-116: the converted request map (a protobuf map field is a Go map; its iteration order does not matter for
building another map with the same keys). -/
def convertLoads (loads : GoMap Str Nat) : GoMap Str Int := loads.map fun e => (e.1, toInt e.2)

/-- server.go:125-129: walk the chain from `curr`. Fuel: the walk is deterministic, so if it makes more hops than there are mixes
it never ends (`hang`). `Successors[0]` panics if there is no successor. -/
def propagateChain (topo : Topology) (workload : Int) : Nat → Option LogicalMix → GoMap Str Int → Go (GoMap Str Int)
  | _, none, w => .ok w
  | 0, some _, _ => .error .hang
  | fuel + 1, some curr, w =>
    match curr.successors with
    | [] => .error .panic
    | s :: _ => propagateChain topo workload fuel (topo.getMix s) (w.insert curr.name workload)

/-- server.go:119-130: all first-layer mixes in order. -/
def propagate (topo : Topology) : List LogicalMix → GoMap Str Int → Go (GoMap Str Int)
  | [], w => .ok w
  | mix :: rest, w =>
    match w.lookup mix.name with
    | none => .error (.err .failedPrecondition "no workload for first layer mix")
    | some load =>
      match propagateChain topo load (topo.mixes.length + 1) (some mix) w with
      | .error e => .error e
      | .ok w' => propagate topo rest w'

/-- server.go:132-139: this server's mixes, collected while ranging over the map in the order `order`. -/
def ownMixes (topo : Topology) (host : Str) (order : GoMap Str (Nat × Nat)) : List LogicalMix :=
  order.filterMap fun e => match topo.getMix e.1 with
    | some m => if m.hostname = host then some m else none
    | none => none

/-- What does not change while the server runs. `env r` describes the round object of round number `r` (its decrypter is the one
of the identity computeId(host, r), server.go:141-142). -/
structure Config where
  topo : Topology
  host : Str
  env : Nat → Mixer.Env

/-- server.go:42-53 `server` with the goroutines working for it. `waiting`: AddMessages handlers that hold a reference to a round
object but have not yet entered its AddMessages. The TIBE fields and the coordinator play no role here. -/
structure State where
  connections : Bool
  objs : List (Nat × Mixer.State)
  rounds : GoMap Nat Nat
  waiting : List (Nat × List Messages)
  crashed : Bool

/-- A response: success, an error, or (for calls that go on to work on round object `i`) pending. -/
inductive Resp
  | ok
  | fail (e : Fail)
  | pending (i : Nat)
  | internal

/-- Scheduler's choices: API calls and internal steps. -/
inductive Action
  | newRound (r : Nat) (loads : GoMap Str Nat) (order : GoMap Str (Nat × Nat))
  | endRound (r : Nat)
  | addMessages (r : Nat) (ms : List Messages)
  | getMessages (r : Nat) (mix : Str)
  /-- a waiting AddMessages handler acquires the mutex of its round object -/
  | enter (k : Nat)
  /-- a goroutine of round object `i` makes a step -/
  | work (i : Nat) (a : Mixer.Action)

/-- server.go:108-161 `NewRound`. (Mapping the request into `workloadPerMix`, propagation, own mixes, NewMixers, Store.) The Sender
is part of the round object's `recv` steps (Model/Sender). -/
def newRound (c : Config) (s : State) (r : Nat) (loads : GoMap Str Nat) (order : GoMap Str (Nat × Nat)) : Go State :=
  if s.connections = false then .error (.err .failedPrecondition "no connections to other mixes")
  else match c.topo.layers with
    | [] => .error .panic
    | first :: _ =>
      match propagate c.topo first (convertLoads loads) with
      | .error e => .error e
      | .ok w =>
        match Mixer.newMixers c.topo (ownMixes c.topo c.host order) w with
        | .error e => .error e
        | .ok m => .ok { s with objs := s.objs ++ [(r, m)], rounds := s.rounds.insert r s.objs.length }

/-- Replace round object `i`. A crash of any goroutine ends the whole process. -/
def State.setObj (s : State) (i : Nat) (r : Nat) (m : Mixer.State) : State :=
  { s with objs := s.objs.set i (r, m), crashed := s.crashed || m.crashed }

/-- One step; `none` = not enabled. -/
def step (c : Config) (s : State) (a : Action) : Option (State × Resp) :=
  if s.crashed then none else
  match a with
  | .newRound r loads order =>
    match newRound c s r loads order with
    | .ok s' => some (s', .ok)
    | .error .panic => some ({ s with crashed := true }, .fail .panic)
    | .error e => some (s, .fail e)
  | .endRound r =>                                                    -- server.go:163-172
    match s.rounds.lookup r with
    | none => some (s, .fail (.err .notFound "round not found"))
    | some i =>
      match s.objs[i]? with
      | none => none
      | some (rr, m) =>
        match Mixer.step (c.env rr) m .close with
        | none => none
        | some m' => some ({ s.setObj i rr m' with rounds := s.rounds.erase r }, .ok)
  | .addMessages r ms =>                                              -- server.go:174-184
    match s.rounds.lookup r with
    | none => some (s, .fail (.err .notFound "round not found"))
    | some i => some ({ s with waiting := s.waiting ++ [(i, ms)] }, .pending i)
  | .getMessages r _ =>                                               -- server.go:55-59
    match s.rounds.lookup r with
    | none => some (s, .fail (.err .failedPrecondition "no round state"))
    | some i => some (s, .pending i)
  | .enter k =>
    match s.waiting[k]? with
    | none => none
    | some (i, ms) =>
      match s.objs[i]? with
      | none => none
      | some (r, m) =>
        match Mixer.step (c.env r) m (.call ms) with
        | none => none
        | some m' => some ({ s.setObj i r m' with waiting := s.waiting.eraseIdx k }, .internal)
  | .work i a =>
    match s.objs[i]? with
    | none => none
    | some (r, m) =>
      match a with
      | .call _ => none
      | .close => none
      | a =>
        match Mixer.step (c.env r) m a with
        | none => none
        | some m' => some (s.setObj i r m', .internal)

/-- Executions, collecting the responses. -/
def exec (c : Config) : State → List Action → Option (State × List Resp)
  | s, [] => some (s, [])
  | s, a :: as =>
    match step c s a with
    | none => none
    | some (s', r) =>
      match exec c s' as with
      | none => none
      | some (s'', rs) => some (s'', r :: rs)

/-- server.go:94-100 plus Dial: a freshly started server. -/
def init (connections : Bool) : State := ⟨connections, [], [], [], false⟩

end Resmix.Server
