import Verif.Model.Topology
import Verif.Model.Shuffle
/-
Model of mixer.go: one `Mixers` object (one server, one round) as a transition system. Every goroutine action between two
synchronisation points is one atomic step; the scheduler is the (arbitrary) list of actions.
-/
namespace Resmix.Mixer

/-- mixnet.proto / mixnet.pb.go `Messages`: a batch for one logical mix. -/
structure Messages where
  messages : List Bytes
  physicalSender : Str
  logicalSender : Str
  logicalReceiver : Str
deriving DecidableEq, Repr

/-- mixer.go:54-63 `decryptionTask`. The pointers `wg` and `Result` of the Go struct are those of the mix `mix`; `Decrypter` is
the one decrypter of the round (`Env.decrypt`). -/
structure Task where
  mix : Str
  input : Bytes
  idx : Int
deriving DecidableEq, Repr

/-- mixer.go:70-89 `mixState`. `wg`, `shuffleWait` are the wait-group counters, `once` tells whether `Once.Do` has run.
`successors` is never read by the code and is left out. `added` is a history variable (not in the code): the onions handed to
`HandleNewInputs` so far, in order. `shuffles` is another history variable: how often `ShuffleOnions` ran. -/
structure MixState where
  predecessors : GoMap (Str × Str) Int
  totalReceived : GoMap (Str × Str) Int
  totalWorkload : Int
  outputs : List Bytes
  wg : Int
  shuffleWait : Int
  once : Bool
  isLastLayer : Bool
  added : List Bytes
  shuffles : Nat
deriving Repr

/-- A goroutine running `shuffleAndSend(mix)` (mixer.go:251-271): `passed = false` while it is before or inside `Once.Do`,
`true` when it is about to send on the output channel. -/
structure Shuf where
  mix : Str
  passed : Bool
deriving DecidableEq, Repr

/-- The goroutine inside `AddMessages` that holds the mutex (mixer.go:191-210): `cur` is the mix whose tasks are being pushed
and the tasks not pushed yet; `rest` are the batches not handled yet. -/
structure AddOp where
  cur : Option (Str × List Task)
  rest : List Messages
deriving Repr

/-- mixer.go:39-42 `mixoutput`. -/
structure MixOutput where
  onions : List Bytes
  logicalSender : Str
deriving DecidableEq, Repr

/-- What does not change during a round: number of workers (runtime.NumCPU, mixer.go:99), capacities of the two channels
(mixer.go:95-96) and what a worker computes from an onion (mixer.go:103-107): `ExtractCipher` then `Decrypt`;
`.error .panic` is a panic of ExtractCipher, another error is a failed decryption (logged, nil result). -/
structure Env where
  nCPU : Nat
  taskCap : Nat
  outCap : Nat
  decrypt : Bytes → Go Bytes

/-- mixer.go:45-52 `Mixers` together with the goroutines working on it. `sent` is a history variable: everything ever put on
the output channel. -/
structure State where
  states : Str → Option MixState
  queue : List Task
  busy : List Task
  holder : Option AddOp
  shufs : List Shuf
  output : List MixOutput
  closed : Bool
  crashed : Bool
  sent : List MixOutput

/-- The scheduler's choices. -/
inductive Action
  /-- a caller of AddMessages acquires the mutex (mixer.go:191-193) -/
  | call (ms : List Messages)
  /-- the mutex holder executes up to its next synchronisation point (mixer.go:195-209) -/
  | addStep
  /-- an idle worker receives a task (mixer.go:102) -/
  | take
  /-- the i-th busy worker completes its task (mixer.go:103-111) -/
  | finish (i : Nat)
  /-- the i-th shuffleAndSend goroutine passes wg.Wait and Once.Do (mixer.go:252-265); `words` are the random words used if it
  is the one that shuffles -/
  | shuffle (i : Nat) (words : List Bytes)
  /-- the i-th shuffleAndSend goroutine sends on the output channel (mixer.go:267-270) -/
  | send (i : Nat)
  /-- the sender takes a batch from the output channel (sender.go:44) -/
  | recv
  /-- Close (mixer.go:123-125) -/
  | close
deriving DecidableEq, Repr

/-- What a worker writes for an onion (mixer.go:104-110): the decrypted message, or nil (empty) if decryption failed. -/
def resultOf (env : Env) (o : Bytes) : Bytes :=
  match env.decrypt o with
  | .ok r => r
  | .error _ => []

/-- mixer.go:213-235 `HandleNewInputs`: tasks get indices totalWorkload-1, totalWorkload-2, ... -/
def mkTasks (mix : Str) : Int → List Bytes → List Task
  | _, [] => []
  | w, o :: os => ⟨mix, o, w - 1⟩ :: mkTasks mix (w - 1) os

/-- mixer.go:213-235 `HandleNewInputs`. A missing `totalReceived` entry counts as zero (Go map semantics). -/
def handleNewInputs (ms : MixState) (m : Messages) : MixState × List Task :=
  let key := (m.physicalSender, m.logicalSender)
  ({ ms with
      totalWorkload := ms.totalWorkload - m.messages.length
      totalReceived := ms.totalReceived.insert key ((ms.totalReceived.lookup key).getD 0 + m.messages.length)
      added := ms.added ++ m.messages },
   mkTasks m.logicalReceiver ms.totalWorkload m.messages)

/-- mixer.go:237-245 `isDone`. -/
def isDone (ms : MixState) : Bool :=
  ms.predecessors.all fun e => decide (e.2 = (ms.totalReceived.lookup e.1).getD 0)

/-- Replace the state of one mix. -/
def State.set (s : State) (n : Str) (ms : MixState) : State :=
  { s with states := fun n' => if n' = n then some ms else s.states n' }

/-- A panic in any goroutine ends the process. -/
def State.crash (s : State) : State := { s with crashed := true }

/-- mixer.go:195-209: next action of the mutex holder. -/
def addStep (env : Env) (s : State) : Option State :=
  match s.holder with
  | none => none
  | some ⟨none, []⟩ => some { s with holder := none }
  | some ⟨none, m :: rest⟩ =>
    match s.states m.logicalReceiver with
    | none => some s.crash                       -- nil *mixState dereferenced in HandleNewInputs
    | some ms =>
      let r := handleNewInputs ms m
      some { s.set m.logicalReceiver r.1 with holder := some ⟨some (m.logicalReceiver, r.2), rest⟩ }
  | some ⟨some (n, t :: ts), rest⟩ =>
    if s.closed then some s.crash                -- send on closed channel
    else if s.queue.length < env.taskCap then
      some { s with queue := s.queue ++ [t], holder := some ⟨some (n, ts), rest⟩ }
    else none
  | some ⟨some (n, []), rest⟩ =>
    match s.states n with
    | none => none
    | some ms =>
      if isDone ms then some { s with shufs := s.shufs ++ [⟨n, false⟩], holder := some ⟨none, rest⟩ }
      else some { s with holder := some ⟨none, rest⟩ }

/-- mixer.go:103-111: a worker completes task `t` (already removed from `busy`). -/
def finishTask (env : Env) (s : State) (t : Task) : State :=
  match env.decrypt t.input with
  | .error .panic => s.crash                     -- "invalid onion" / slice out of range
  | _ =>
    match s.states t.mix with
    | none => s.crash
    | some ms =>
      if 0 ≤ t.idx ∧ t.idx < ms.outputs.length then
        if ms.wg - 1 < 0 then s.crash            -- negative WaitGroup counter
        else s.set t.mix { ms with outputs := ms.outputs.set t.idx.toNat (resultOf env t.input), wg := ms.wg - 1 }
      else s.crash                               -- index out of range

/-- mixer.go:252-265 and shuffle.go: wg.Wait, Once.Do (shuffle, signalDone), test for the last layer. The body of Once.Do is one
atomic step: other callers of Do wait for it, and readers of the outputs wait for signalDone. -/
def shuffleStep (s : State) (i : Nat) (words : List Bytes) : Option State :=
  match s.shufs[i]? with
  | some ⟨n, false⟩ =>
    match s.states n with
    | none => none
    | some ms =>
      if ms.wg = 0 then
        let s' : State := { s with shufs :=
          if ms.isLastLayer then s.shufs.eraseIdx i else s.shufs.set i ⟨n, true⟩ }
        if ms.once then some s'
        else
          match Shuffle.shuffleOnions (Shuffle.newShuffler Shuffle.scripted words) ms.outputs with
          | .error _ => some s.crash
          | .ok (out, _) => some (s'.set n { ms with outputs := out, shuffleWait := ms.shuffleWait - 1, once := true,
                                                          shuffles := ms.shuffles + 1 })
      else none
  | _ => none

/-- mixer.go:183-189 `GetOutputs`: blocks (`none`) until both wait groups are zero. Both counters only ever decrease, so the two
consecutive waits are equivalent to both being zero when the call returns. -/
def getOutputs (ms : MixState) : Option (List Bytes) :=
  if ms.wg = 0 ∧ ms.shuffleWait = 0 then some ms.outputs else none

/-- mixer.go:267-270. -/
def sendStep (env : Env) (s : State) (i : Nat) : Option State :=
  match s.shufs[i]? with
  | some ⟨n, true⟩ =>
    match s.states n with
    | none => none
    | some ms =>
      match getOutputs ms with
      | none => none
      | some out =>
        if s.output.length < env.outCap then
          some { s with shufs := s.shufs.eraseIdx i, output := s.output ++ [⟨out, n⟩], sent := s.sent ++ [⟨out, n⟩] }
        else none
  | _ => none

/-- One step of the system; `none` means the action is not enabled. -/
def step (env : Env) (s : State) (a : Action) : Option State :=
  if s.crashed then none else
  match a with
  | .call ms => if s.holder.isSome then none else some { s with holder := some ⟨none, ms⟩ }
  | .addStep => addStep env s
  | .take =>
    match s.queue with
    | [] => none
    | t :: q => if s.busy.length < env.nCPU then some { s with queue := q, busy := s.busy ++ [t] } else none
  | .finish i =>
    match s.busy[i]? with
    | none => none
    | some t => some (finishTask env { s with busy := s.busy.eraseIdx i } t)
  | .shuffle i words => shuffleStep s i words
  | .send i => sendStep env s i
  | .recv => match s.output with
    | [] => none
    | _ :: q => some { s with output := q }
  | .close => if s.closed then some s.crash else some { s with closed := true }

/-- A whole execution. -/
def exec (env : Env) : State → List Action → Option State
  | s, [] => some s
  | s, a :: as => (step env s a).bind fun s' => exec env s' as

/-- mixer.go:160-181 `SetPredecessors`: the expected number of messages per (host, mix) predecessor. -/
def setPredecessors (topo : Topology) (mix : LogicalMix) (workload : GoMap Str Int) (own : Int) :
    Go (GoMap (Str × Str) Int) :=
  mix.predecessors.foldlM (fun acc p =>
    if p = genesisName then .ok (acc.insert (genesisName, p) own)
    else match topo.getMix p with
      | none => .error .panic
      | some pm => .ok (acc.insert (pm.hostname, p) ((workload.lookup p).getD 0))) []

/-- mixer.go:127-158 `newMixState`; `make([]Onion, w)` panics for negative w (exhaustion of memory is not modelled). -/
def newMixState (topo : Topology) (mix : LogicalMix) (workload : GoMap Str Int) : Go MixState :=
  let w := (workload.lookup mix.name).getD 0
  if w < 0 then .error .panic
  else match setPredecessors topo mix workload w with
    | .error e => .error e
    | .ok preds => .ok
      { predecessors := preds
        totalReceived := preds.map (fun e => (e.1, 0))
        totalWorkload := w
        outputs := List.replicate w.toNat []
        wg := w
        shuffleWait := 1
        once := false
        isLastLayer := mix.layer + 1 == topo.layers.length
        added := [], shuffles := 0 }

/-- mixer.go:91-121 `NewMixers`: workers idle, one state per mix of this server. -/
def newMixers (topo : Topology) (mixes : List LogicalMix) (workload : GoMap Str Int) : Go State := do
  let sts ← mixes.foldlM (fun (acc : Str → Option MixState) mix => do
    let ms ← newMixState topo mix workload
    .ok (fun n => if n = mix.name then some ms else acc n)) (fun _ => none)
  .ok { states := sts, queue := [], busy := [], holder := none, shufs := [], output := [], closed := false,
        crashed := false, sent := [] }

/-- mixer.go:273-283 `GetMixOutputs`: NotFound for an unknown mix, otherwise `GetOutputs` (`none` = still blocked, or the
process is dead). The mutex is only held for the map lookup; the map never changes, so waiting for it is not modelled. -/
def getMixOutputs (s : State) (n : Str) : Option (Go (List Bytes)) :=
  if s.crashed then none else
  match s.states n with
  | none => some (.error (.err .notFound "mix not found"))
  | some ms => (getOutputs ms).map .ok

end Resmix.Mixer
