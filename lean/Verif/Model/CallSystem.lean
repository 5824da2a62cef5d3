import Verif.Model.Collector
import Verif.Model.Relay
import Verif.Spec.Robust
import Mathlib.Tactic.DeriveFintype
import Mathlib.Data.Fintype.Sigma
import Mathlib.Data.Fintype.Sum
set_option autoImplicit false
/-
The whole path of robust calls: clients, relays, servers, their goroutines and channels and the streams between them, interleaved
arbitrarily. Clients `0..m-1` are coordinators; relays and servers `0..n-1` are the servers of the network, and every client and relay is
connected to all of them. The calls that are made at some time are `0..K-1`. Streams hold at most `window` messages (flow control), in order, and never
fail. Not modelled here: failing streams, the cleanups of the clients' connections and the verifiers' workers (Model/SendConn, Streams,
Incoming, RelayConn, VerifierPool), refusals of a relay (`AsyncSend` of an unknown key).
-/
namespace Resmix.Rrpc.CallSystem
open Resmix.Ecc

/-- A robust call: the client and its key, the server, the method, the note before signing, the packed arguments, and the signed parcels,
one for every relay (rrpc/client.go:245-265, Model/Parcel `RequestIntoRobust`, Model/Sign `signRobust`). -/
structure CallSpec (Sk : Type) (m n : Nat) where
  client : Fin m
  server : Fin n
  key : Sk
  method : Str
  note : ExchangeNote
  args : Bytes
  parcels : Fin n → Parcel

/-- What does not change: the cryptography, the network data and erasure code of all coordinators, the servers' keys and services
(Model/Services), the flow control window, the text of a refusal (rrpc/rrpc_server_stream.go:78), and the calls. -/
structure Config (μ : Type) (K m n : Nat) where
  S : SigScheme
  H : Merkle.HashFn
  cod : Codec
  net : Network
  C : RS
  key : Fin n → S.Sk
  lookup : Fin n → Str → Go μ
  window : Nat
  text : Fail → Str
  calls : Fin K → CallSpec S.Sk m n

variable {μ : Type} {K m n : Nat}

/-- Where a parcel can be. -/
inductive PLoc (K m n : Nat)
  | ask (k : Fin K)                      -- not yet sent by the loop rrpc/coordinator.go:172-182
  | sending (k : Fin K)                  -- rrpc/net_conns.go:148-154: its entry is stored, it waits for room in `requests`
  | requests (c : Fin m) (r : Fin n)     -- `requests` of a client's connection (rrpc/net_conns.go: capacity 100)
  | up (c : Fin m) (r : Fin n)           -- the stream from the client to the relay
  | handling (r : Fin n) (c : Fin m)     -- received by the relay's handler (rrpc/relay.go:123-141)
  | toSend (r d : Fin n)                 -- `toSend` of a relay's connection (rrpc/net_conns.go:286: capacity 100)
  | down (r d : Fin n)                   -- the stream from the relay to the server
  | checking (d r : Fin n)               -- received by the server's handler (rrpc/rrpc_server_stream.go:66-87)
  | collector (d : Fin n)                -- `collectorTasks` (rrpc/server.go:78: capacity 1000)
  | collected (d : Fin n)                -- taken by the collector (a ghost)
deriving DecidableEq, Fintype

/-- Where a response can be. -/
inductive ALoc (K m n : Nat)
  | proc (k : Fin K) (r : Fin n)         -- still to be sent by the goroutine that parcel `r` of call `k` started (rrpc/rrpc_server_stream.go:173-175)
  | refusing (d r : Fin n)               -- a server's handler refuses a parcel (lines 75-79)
  | refusingC (d : Fin n)                -- a server's collector refuses a parcel (lines 143-146)
  | back (d r : Fin n)                   -- the response channel for a relay (line 21: capacity 100)
  | wire (d r : Fin n)                   -- the stream from the server to the relay
  | holding (r d : Fin n)                -- received by the relay's receiving goroutine (rrpc/net_conns.go:328-339)
  | incoming (r : Fin n)                 -- `callResponseChan` (rrpc/coordinator.go:102: capacity 100)
  | routing (r : Fin n) (c : Fin m)      -- about to be passed on to the client (rrpc/relay.go:82-87)
  | resps (r : Fin n) (c : Fin m)        -- the channel of the client's stream (rrpc/relay.go:113: capacity 100)
  | wireC (r : Fin n) (c : Fin m)        -- the stream from the relay to the client
  | recv (c : Fin m) (r : Fin n) (k : Fin K)  -- received by the client, about to be handed to call `k` (rrpc/net_conns.go:193-213)
  | queue (k : Fin K)                    -- the response channel of a call (rrpc/coordinator.go:169: capacity n)
  | taken (k : Fin K)                    -- taken by the call (a ghost)
  | dropped (r : Fin n)                  -- ignored by the relay, which has no entry for it (rrpc/relay.go:83-85; a ghost)
  | ignored (c : Fin m) (r : Fin n)      -- ignored by the client, which has no entry for it (rrpc/net_conns.go:205-207; a ghost)
deriving DecidableEq, Fintype

/-- A response of a server; `call` and `relay` (the relay it is sent to) are ghosts. -/
structure Ans (K n : Nat) where
  call : Fin K
  relay : Fin n
  msg : CallStreamResponse
deriving DecidableEq

/-- What a handler may do when it is run: its outcome for a method, a call id and arguments. -/
abbrev Behaviour (μ : Type) := μ → Str → Bytes → Except SvcErr Bytes

/-- A goroutine started by a collector (rrpc/rrpc_server_stream.go:159-176): its task, and, once the handler has returned, what the
handler did (a ghost). -/
structure Job (μ : Type) where
  task : CTask μ
  ran : Option (Behaviour μ)

/-- Parcels are (call, relay); their contents never change. -/
structure State (μ : Type) (K m n : Nat) where
  begun : Fin K → Bool                               -- the call has reached rrpc/coordinator.go:163
  parcels : PLoc K m n → List (Fin K × Fin n)
  answers : ALoc K m n → List (Ans K n)
  live : Fin m → Fin n → GoMap Str (Fin K)           -- `liveTasks` of a client's connection; calls stand for their response channels
  storing : Fin n → Fin m → Option Str               -- a relay's handler is between rrpc/relay.go:141 and 158
  pending : Fin n → GoMap Str (Fin m)                -- `uuidToPeer` of a relay; clients stand for the channels of their streams
  history : Fin n → List CEv                         -- what a collector selected (a ghost)
  tasks : Fin n → GoMap Str (CTask μ)                -- the collector's tasks
  jobs : Fin K → Fin n → Option (Job μ)              -- by the parcel that started the goroutine
  taken : Fin K → List Answer                        -- the answers a call has received, with the verifier's verdicts
  cancelled : Fin K → Bool                           -- its context is done
  crashed : Bool

/-- Nothing has happened yet; everybody is connected. -/
def init : State μ K m n :=
  { begun := fun _ => false, parcels := fun _ => [], answers := fun _ => [], live := fun _ _ => [], storing := fun _ _ => none, pending := fun _ => []
    history := fun _ => [], tasks := fun _ => [], jobs := fun _ _ => none, taken := fun _ => [], cancelled := fun _ => false, crashed := false }

/-- The parcel with this ghost name. -/
def Config.parcel (cfg : Config μ K m n) (x : Fin K × Fin n) : Parcel := (cfg.calls x.1).parcels x.2

/-- The call's id. -/
def Config.uuid (cfg : Config μ K m n) (k : Fin K) : Str := (cfg.calls k).note.calluuid

/-- Where goroutines and streams that only pass parcels on bring them. -/
def nextP (cfg : Config μ K m n) : PLoc K m n → Fin K × Fin n → Option (PLoc K m n)
  | .sending k, x => some (.requests (cfg.calls k).client x.2)   -- rrpc/net_conns.go:151
  | .requests c r, _ => some (.up c r)                             -- rrpc/net_conns.go:171-172
  | .up c r, _ => some (.handling r c)                             -- rrpc/relay.go:123
  | .toSend r d, _ => some (.down r d)                             -- rrpc/net_conns.go:308-311
  | .down r d, _ => some (.checking d r)                           -- rrpc/rrpc_server_stream.go:66
  | _, _ => none

/-- Whether there is room for one more parcel: the capacities of channels and streams; a goroutine has one at a time, and a handler receives the
next request only after it has stored the last one (rrpc/relay.go:158), or has sent its refusal (rrpc/rrpc_server_stream.go:76). -/
def roomP (cfg : Config μ K m n) (s : State μ K m n) : PLoc K m n → Prop
  | .sending k => s.parcels (.sending k) = []
  | .requests c r => (s.parcels (.requests c r)).length < 100
  | .up c r => (s.parcels (.up c r)).length < cfg.window
  | .handling r c => s.parcels (.handling r c) = [] ∧ s.storing r c = none
  | .toSend r d => (s.parcels (.toSend r d)).length < 100
  | .down r d => (s.parcels (.down r d)).length < cfg.window
  | .checking d r => s.parcels (.checking d r) = [] ∧ s.answers (.refusing d r) = []
  | .collector d => (s.parcels (.collector d)).length < 1000
  | .ask _ => True
  | .collected _ => True

/-- Where goroutines and streams that only pass responses on bring them. -/
def nextA (cfg : Config μ K m n) : ALoc K m n → Ans K n → Option (ALoc K m n)
  | .proc k _, a => some (.back (cfg.calls k).server a.relay)      -- rrpc/rrpc_server_stream.go:30, 174
  | .refusing d r, _ => some (.back d r)                            -- lines 30, 76
  | .refusingC d, a => some (.back d a.relay)                       -- lines 30, 144
  | .back d r, _ => some (.wire d r)                                -- lines 57-58
  | .wire d r, _ => some (.holding r d)                             -- rrpc/net_conns.go:328
  | .holding r _, _ => some (.incoming r)                           -- rrpc/net_conns.go:339
  | .routing r c, _ => some (.resps r c)                            -- rrpc/relay.go:87
  | .resps r c, _ => some (.wireC r c)                              -- rrpc/relay.go:115-116
  | .recv _ _ k, _ => some (.queue k)                               -- rrpc/net_conns.go:213
  | _, _ => none

/-- Whether there is room for one more response. -/
def roomA (cfg : Config μ K m n) (s : State μ K m n) : ALoc K m n → Prop
  | .back d r => (s.answers (.back d r)).length < 100
  | .wire d r => (s.answers (.wire d r)).length < cfg.window
  | .holding r d => s.answers (.holding r d) = []
  | .incoming r => (s.answers (.incoming r)).length < 100
  | .resps r c => (s.answers (.resps r c)).length < 100
  | .wireC r c => (s.answers (.wireC r c)).length < cfg.window
  | .queue k => (s.answers (.queue k)).length < n
  | _ => True

/-- The head of list `l` goes to the end of list `l'`. -/
def move {L α : Type} [DecidableEq L] (f : L → List α) (l l' : L) (x : α) (rest : List α) : L → List α :=
  Function.update (Function.update f l rest) l' (Function.update f l rest l' ++ [x])

/-- `x` is added at the end of list `l`. -/
def push {L α : Type} [DecidableEq L] (f : L → List α) (l : L) (x : α) : L → List α := Function.update f l (f l ++ [x])

/-- A function of two arguments changed at one place. -/
def set2 {A B V : Type} [DecidableEq A] [DecidableEq B] (f : A → B → V) (a : A) (b : B) (v : V) : A → B → V :=
  Function.update f a (Function.update (f a) b v)

/-- The answer a call gets for a response: rrpc/relay.go:87-90, checked by the client's verifier against the key of the server
(rrpc/coordinator.go:168, 231), whatever it remembers. -/
def judge (cfg : Config μ K m n) (cache : Cache) (a : Ans K n) : Answer :=
  ({ relayStreamError := none, response := some a.msg, uuid := (a.msg.note.map (·.calluuid)).getD [] },
   match a.msg.note with | none => .error .panic | some x => (verifyReceiverNote cfg.S cfg.H cfg.cod cache (cfg.calls a.call).note.receiverID x).1)

/-- The result of the receive loop of a call so far (rrpc/coordinator.go:184-215); `none`: it still waits. -/
def loopResult (cfg : Config μ K m n) (s : State μ K m n) (k : Fin K) : Option (Except CallErr (List (Option CallStreamResponse))) :=
  robustRequest cfg.net ((s.taken k).map Answer.ev ++ if s.cancelled k then [.done] else [])

/-- What may happen next. -/
inductive Event (μ : Type) (K m n : Nat)
  | begin (k : Fin K)                                    -- a call is made
  | register (k : Fin K)                                 -- rrpc/net_conns.go:147
  | moveP (l : PLoc K m n)
  | forward (r : Fin n) (c : Fin m)                      -- rrpc/relay.go:141-146
  | store (r : Fin n) (c : Fin m)                        -- rrpc/relay.go:158
  | check (d r : Fin n) (cache : Cache) (tick : Bool)    -- rrpc/rrpc_server_stream.go:75-87
  | collect (d : Fin n) (now : Nat)                      -- lines 140-176
  | tick (d : Fin n) (now : Nat)                         -- lines 130-135
  | finish (k : Fin K) (r : Fin n) (h : Behaviour μ) (buf : Bytes)  -- lines 160-171: the task is run and its responses are signed
  | moveA (l : ALoc K m n)
  | route (r : Fin n)                                    -- rrpc/relay.go:77-85
  | answer (c : Fin m) (r : Fin n)                       -- rrpc/net_conns.go:193-207
  | take (k : Fin K) (cache : Cache)                     -- rrpc/coordinator.go:195-215
  | clean (r : Fin n) (uuid : Str)                       -- the relay's cleanup drops an entry (rrpc/gc.go:17-21)
  | cancel (k : Fin K)                                   -- the call's context or the client's is done

/-- One step. Nothing happens after a crash of one of the processes. -/
inductive Step (cfg : Config μ K m n) : State μ K m n → Event μ K m n → State μ K m n → Prop
  /-- rrpc/client.go:245-265, rrpc/coordinator.go:163-172 -/
  | begin (s : State μ K m n) (k : Fin K) (h0 : s.crashed = false) (hb : s.begun k = false) :
      Step cfg s (.begin k) { s with begun := Function.update s.begun k true
                                     parcels := Function.update s.parcels (.ask k) ((List.finRange n).map fun r => (k, r)) }
  /-- rrpc/coordinator.go:172-178, rrpc/net_conns.go:147: the entry is stored first -/
  | register (s : State μ K m n) (k : Fin K) (x : Fin K × Fin n) (rest : List (Fin K × Fin n)) (h0 : s.crashed = false)
      (hl : s.parcels (.ask k) = x :: rest) (hr : roomP cfg s (.sending k)) :
      Step cfg s (.register k) { s with parcels := move s.parcels (.ask k) (.sending k) x rest
                                        live := set2 s.live (cfg.calls k).client x.2 ((s.live (cfg.calls k).client x.2).insert (cfg.parcel x).note.calluuid k) }
  /-- a parcel is passed on -/
  | moveP (s : State μ K m n) (l l' : PLoc K m n) (x : Fin K × Fin n) (rest : List (Fin K × Fin n)) (h0 : s.crashed = false)
      (hl : s.parcels l = x :: rest) (hn : nextP cfg l x = some l') (hr : roomP cfg s l') :
      Step cfg s (.moveP l) { s with parcels := move s.parcels l l' x rest }
  /-- rrpc/relay.go:141-146, rrpc/coordinator.go:140-153: to the server with the receiver's key -/
  | forward (s : State μ K m n) (r : Fin n) (c : Fin m) (x : Fin K × Fin n) (rest : List (Fin K × Fin n)) (d : Fin n) (h0 : s.crashed = false)
      (hl : s.parcels (.handling r c) = x :: rest) (hd : cfg.net.serverAddresses[d]? = some (cfg.net.getHostname (cfg.parcel x).note.receiverID))
      (hr : roomP cfg s (.toSend r d)) :
      Step cfg s (.forward r c) { s with parcels := move s.parcels (.handling r c) (.toSend r d) x rest
                                         storing := set2 s.storing r c (some (cfg.parcel x).note.calluuid) }
  /-- rrpc/relay.go:158 -/
  | store (s : State μ K m n) (r : Fin n) (c : Fin m) (u : Str) (h0 : s.crashed = false) (hs : s.storing r c = some u) :
      Step cfg s (.store r c) { s with storing := set2 s.storing r c none, pending := Function.update s.pending r ((s.pending r).insert u c) }
  /-- rrpc/rrpc_server_stream.go:84-87 -/
  | accept (s : State μ K m n) (d r : Fin n) (cache : Cache) (tick : Bool) (x : Fin K × Fin n) (rest : List (Fin K × Fin n)) (h0 : s.crashed = false)
      (hl : s.parcels (.checking d r) = x :: rest)
      (hc : Relay.onParcel cfg.S cfg.H cfg.cod cache tick cfg.text r (cfg.parcel x) = .accept) (hr : roomP cfg s (.collector d)) :
      Step cfg s (.check d r cache tick) { s with parcels := move s.parcels (.checking d r) (.collector d) x rest }
  /-- rrpc/rrpc_server_stream.go:75-81 -/
  | refuse (s : State μ K m n) (d r : Fin n) (cache : Cache) (tick : Bool) (x : Fin K × Fin n) (rest : List (Fin K × Fin n)) (resp : CallStreamResponse)
      (h0 : s.crashed = false) (hl : s.parcels (.checking d r) = x :: rest)
      (hc : Relay.onParcel cfg.S cfg.H cfg.cod cache tick cfg.text r (cfg.parcel x) = .answer resp) :
      Step cfg s (.check d r cache tick) { s with parcels := Function.update s.parcels (.checking d r) rest
                                                  answers := push s.answers (.refusing d r) ⟨x.1, x.2, resp⟩ }
  /-- rrpc/rrpc_server_stream.go:75: a panic in the checks -/
  | checkCrash (s : State μ K m n) (d r : Fin n) (cache : Cache) (tick : Bool) (x : Fin K × Fin n) (rest : List (Fin K × Fin n)) (h0 : s.crashed = false)
      (hl : s.parcels (.checking d r) = x :: rest)
      (hc : Relay.onParcel cfg.S cfg.H cfg.cod cache tick cfg.text r (cfg.parcel x) = .crash) :
      Step cfg s (.check d r cache tick) { s with crashed := true }
  /-- rrpc/rrpc_server_stream.go:140-154: a parcel is collected, and that is all -/
  | collect (s : State μ K m n) (d : Fin n) (now : Nat) (x : Fin K × Fin n) (rest : List (Fin K × Fin n)) (tasks' : GoMap Str (CTask μ)) (h0 : s.crashed = false)
      (hl : s.parcels (.collector d) = x :: rest) (hb : s.answers (.refusingC d) = [])
      (hc : collectorStep cfg.net.minimalRelayedParcels 5000000000 (cfg.lookup d) (s.tasks d) (.parcel now (cfg.parcel x)) = (tasks', [])) :
      Step cfg s (.collect d now) { s with parcels := move s.parcels (.collector d) (.collected d) x rest
                                           tasks := Function.update s.tasks d tasks'
                                           history := Function.update s.history d (s.history d ++ [.parcel now (cfg.parcel x)]) }
  /-- rrpc/rrpc_server_stream.go:156-159: the collected parcel completes a task, for which a goroutine is started -/
  | collectRun (s : State μ K m n) (d : Fin n) (now : Nat) (x : Fin K × Fin n) (rest : List (Fin K × Fin n)) (tasks' : GoMap Str (CTask μ)) (t : CTask μ)
      (h0 : s.crashed = false) (hl : s.parcels (.collector d) = x :: rest) (hb : s.answers (.refusingC d) = [])
      (hc : collectorStep cfg.net.minimalRelayedParcels 5000000000 (cfg.lookup d) (s.tasks d) (.parcel now (cfg.parcel x)) = (tasks', [.run t])) :
      Step cfg s (.collect d now) { s with parcels := move s.parcels (.collector d) (.collected d) x rest
                                           tasks := Function.update s.tasks d tasks'
                                           history := Function.update s.history d (s.history d ++ [.parcel now (cfg.parcel x)])
                                           jobs := set2 s.jobs x.1 x.2 (some ⟨t, none⟩) }
  /-- rrpc/rrpc_server_stream.go:143-149: the method is unknown -/
  | collectRefuse (s : State μ K m n) (d : Fin n) (now : Nat) (x : Fin K × Fin n) (rest : List (Fin K × Fin n)) (tasks' : GoMap Str (CTask μ)) (i : Int) (e : Fail)
      (h0 : s.crashed = false) (hl : s.parcels (.collector d) = x :: rest) (hb : s.answers (.refusingC d) = [])
      (hc : collectorStep cfg.net.minimalRelayedParcels 5000000000 (cfg.lookup d) (s.tasks d) (.parcel now (cfg.parcel x)) = (tasks', [.refuse i e])) :
      Step cfg s (.collect d now) { s with parcels := move s.parcels (.collector d) (.collected d) x rest
                                           tasks := Function.update s.tasks d tasks'
                                           history := Function.update s.history d (s.history d ++ [.parcel now (cfg.parcel x)])
                                           answers := push s.answers (.refusingC d) ⟨x.1, x.2, Relay.refusal (cfg.text e)⟩ }
  /-- rrpc/rrpc_server_stream.go:130-135 -/
  | tick (s : State μ K m n) (d : Fin n) (now : Nat) (h0 : s.crashed = false) (hb : s.answers (.refusingC d) = []) :
      Step cfg s (.tick d now) { s with tasks := Function.update s.tasks d (collectorStep cfg.net.minimalRelayedParcels 5000000000 (cfg.lookup d) (s.tasks d) (.tick now)).1
                                        history := Function.update s.history d (s.history d ++ [.tick now]) }
  /-- rrpc/rrpc_server_stream.go:160-173: response `i` is for relay `i` -/
  | finish (s : State μ K m n) (k : Fin K) (r : Fin n) (h : Behaviour μ) (buf : Bytes) (t : CTask μ) (resps : Fin n → CallStreamResponse) (h0 : s.crashed = false)
      (hj : s.jobs k r = some ⟨t, none⟩)
      (ho : TaskOutput cfg.S cfg.H cfg.cod (cfg.key (cfg.calls k).server) cfg.C false cfg.net h buf t (.ok (List.ofFn resps))) :
      Step cfg s (.finish k r h buf) { s with jobs := set2 s.jobs k r (some ⟨t, some h⟩)
                                              answers := Function.update s.answers (.proc k r) ((List.finRange n).map fun i => ⟨k, i, resps i⟩) }
  /-- rrpc/rrpc_server_stream.go:160: a panic in the task -/
  | finishCrash (s : State μ K m n) (k : Fin K) (r : Fin n) (h : Behaviour μ) (buf : Bytes) (t : CTask μ) (h0 : s.crashed = false) (hj : s.jobs k r = some ⟨t, none⟩)
      (ho : TaskOutput cfg.S cfg.H cfg.cod (cfg.key (cfg.calls k).server) cfg.C false cfg.net h buf t (.error .panic)) :
      Step cfg s (.finish k r h buf) { s with crashed := true }
  /-- a response is passed on -/
  | moveA (s : State μ K m n) (l l' : ALoc K m n) (a : Ans K n) (rest : List (Ans K n)) (h0 : s.crashed = false)
      (hl : s.answers l = a :: rest) (hn : nextA cfg l a = some l') (hr : roomA cfg s l') :
      Step cfg s (.moveA l) { s with answers := move s.answers l l' a rest }
  /-- rrpc/relay.go:82-87 -/
  | route (s : State μ K m n) (r : Fin n) (c : Fin m) (a : Ans K n) (rest : List (Ans K n)) (x : ExchangeNote) (h0 : s.crashed = false)
      (hf : ∀ c', s.answers (.routing r c') = []) (hl : s.answers (.incoming r) = a :: rest) (hn : a.msg.note = some x)
      (hp : (s.pending r).lookup x.calluuid = some c) :
      Step cfg s (.route r) { s with answers := move s.answers (.incoming r) (.routing r c) a rest
                                     pending := Function.update s.pending r ((s.pending r).erase x.calluuid) }
  /-- rrpc/relay.go:83-85: there is no entry -/
  | drop (s : State μ K m n) (r : Fin n) (a : Ans K n) (rest : List (Ans K n)) (x : ExchangeNote) (h0 : s.crashed = false)
      (hf : ∀ c', s.answers (.routing r c') = []) (hl : s.answers (.incoming r) = a :: rest) (hn : a.msg.note = some x)
      (hp : (s.pending r).lookup x.calluuid = none) :
      Step cfg s (.route r) { s with answers := move s.answers (.incoming r) (.dropped r) a rest }
  /-- rrpc/relay.go:82: nil pointer -/
  | routeCrash (s : State μ K m n) (r : Fin n) (a : Ans K n) (rest : List (Ans K n)) (h0 : s.crashed = false)
      (hf : ∀ c', s.answers (.routing r c') = []) (hl : s.answers (.incoming r) = a :: rest) (hn : a.msg.note = none) :
      Step cfg s (.route r) { s with crashed := true }
  /-- rrpc/net_conns.go:193-213 -/
  | answer (s : State μ K m n) (c : Fin m) (r : Fin n) (k : Fin K) (a : Ans K n) (rest : List (Ans K n)) (h0 : s.crashed = false)
      (hf : ∀ k', s.answers (.recv c r k') = []) (hl : s.answers (.wireC r c) = a :: rest)
      (hp : (s.live c r).lookup ((a.msg.note.map (·.calluuid)).getD []) = some k) :
      Step cfg s (.answer c r) { s with answers := move s.answers (.wireC r c) (.recv c r k) a rest
                                        live := set2 s.live c r ((s.live c r).erase ((a.msg.note.map (·.calluuid)).getD [])) }
  /-- rrpc/net_conns.go:204-207: there is no entry -/
  | ignore (s : State μ K m n) (c : Fin m) (r : Fin n) (a : Ans K n) (rest : List (Ans K n)) (h0 : s.crashed = false)
      (hf : ∀ k', s.answers (.recv c r k') = []) (hl : s.answers (.wireC r c) = a :: rest)
      (hp : (s.live c r).lookup ((a.msg.note.map (·.calluuid)).getD []) = none) :
      Step cfg s (.answer c r) { s with answers := move s.answers (.wireC r c) (.ignored c r) a rest }
  /-- rrpc/coordinator.go:195-215 -/
  | take (s : State μ K m n) (k : Fin K) (cache : Cache) (a : Ans K n) (rest : List (Ans K n)) (h0 : s.crashed = false)
      (hw : loopResult cfg s k = none) (hask : s.parcels (.ask k) = [] ∧ s.parcels (.sending k) = []) (hl : s.answers (.queue k) = a :: rest) :
      Step cfg s (.take k cache) { s with answers := move s.answers (.queue k) (.taken k) a rest
                                          taken := Function.update s.taken k (s.taken k ++ [judge cfg cache a]) }
  /-- rrpc/gc.go:17-21 with rrpc/relay.go:98: an entry of any age -/
  | clean (s : State μ K m n) (r : Fin n) (u : Str) (h0 : s.crashed = false) :
      Step cfg s (.clean r u) { s with pending := Function.update s.pending r ((s.pending r).erase u) }
  /-- rrpc/coordinator.go:191-194 -/
  | cancel (s : State μ K m n) (k : Fin K) (h0 : s.crashed = false) (hb : s.begun k = true) :
      Step cfg s (.cancel k) { s with cancelled := Function.update s.cancelled k true }

/-- A sequence of steps. -/
inductive Run (cfg : Config μ K m n) : State μ K m n → List (Event μ K m n) → State μ K m n → Prop
  | nil (s : State μ K m n) : Run cfg s [] s
  | cons {s s' s'' : State μ K m n} {e : Event μ K m n} {es : List (Event μ K m n)} (h : Step cfg s e s') (t : Run cfg s' es s'') : Run cfg s (e :: es) s''

end Resmix.Rrpc.CallSystem
