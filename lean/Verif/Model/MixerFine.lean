import Verif.Model.Mixer
import Verif.Spec.Race
set_option autoImplicit false
/-
mixer.go and shuffle.go once more, one memory access at a time: what Model/Mixer does in one step (HandleNewInputs, completing a task, shuffling) is here
a sequence of reads and writes of shared memory, between which all other goroutines may run. Every step says which accesses and synchronisations it makes
(Spec/Race). The fields that are written only before the Mixers object is handed out (states, predecessors, name, isLastLayer, the slice headers of outputs)
are not locations. The objects are those of Model/Mixer.
-/
namespace Resmix.MixerFine
open Resmix.Mixer (Messages Task Env)
open Resmix.Race

/-- The goroutines: callers of AddMessages (a new number for each call), decryption workers, goroutines running shuffleAndSend, the sender, callers of
GetMixOutputs (a new number for each call). -/
inductive Gid
  | caller (k : Nat)
  | worker (k : Nat)
  | shuf (k : Nat)
  | sender
  | getter (k : Nat)
deriving DecidableEq

/-- Shared memory: totalWorkload, the map totalReceived, one element of outputs, and the Shuffler of a mix (mixer.go:77-84). -/
inductive Loc
  | workload (n : Str)
  | received (n : Str)
  | slot (n : Str) (i : Nat)
  | shuffler (n : Str)
deriving DecidableEq

/-- Synchronisation: the mutex (mixer.go:51), the k-th message of tasksChan and of output (mixer.go:47, 49), wg, Once and shuffleWait of a mix
(mixer.go:82-86), and the start of a goroutine (mixer.go:208). -/
inductive Sync
  | mu
  | task (k : Nat)
  | wg (n : Str)
  | once (n : Str)
  | shuffled (n : Str)
  | out (k : Nat)
  | spawn (k : Nat)
deriving DecidableEq

/-- An access or synchronisation of a goroutine. -/
abbrev Ev := Event Gid Loc Sync

/-- sync.Once: not called, its function runs, its function has returned. -/
inductive OnceSt
  | fresh
  | running
  | done
deriving DecidableEq

/-- mixer.go:70-89 `mixState`: memory and counters. -/
structure Mem where
  predecessors : GoMap (Str × Str) Int
  isLastLayer : Bool
  totalReceived : GoMap (Str × Str) Int
  totalWorkload : Int
  outputs : List Bytes
  wg : Int
  shuffleWait : Int
  once : OnceSt

/-- Where the goroutine in AddMessages is (mixer.go:195-209 and 213-245). `os` are the onions of the batch `m` that have no task yet, `acc` the tasks made.
`next`: at the head of the loop of line 195. `idx`: about to read totalWorkload for the index of the next task (222), or, without onions left, to read
totalReceived (232). `load`, `store`: about to read and to write totalWorkload in line 226. `rstore`: about to write totalReceived (232). `push`: sending the
tasks (200-202). `check`: in isDone, the predecessors `todo` are still to be compared (238-242). -/
inductive HPc
  | next
  | idx (m : Messages) (os : List Bytes) (acc : List Task)
  | load (m : Messages) (o : Bytes) (os : List Bytes) (acc : List Task) (i : Int)
  | store (m : Messages) (o : Bytes) (os : List Bytes) (acc : List Task) (i v : Int)
  | rstore (m : Messages) (acc : List Task) (v : Int)
  | push (n : Str) (ts : List Task)
  | check (n : Str) (todo : GoMap (Str × Str) Int)

/-- Where a goroutine in shuffleAndSend is (mixer.go:251-271). `start`: at wg.Wait (252). `enter`: at Once.Do (254). `copy`: in ShuffleOnions, copying the
outputs (shuffle.go:31-32), `orig` is the copy so far. `put`: writing the outputs (shuffle.go:40-42), `i` elements are written; `p` is the permutation and
`words` (for the proofs only) the random words it was made of. `leave`: after signalDone (258), in Once.Do. `after`: after Once.Do (263). `wait`: in
GetOutputs, at shuffleWait.Wait (186). `send`: at the send (267). -/
inductive SPc
  | start
  | enter
  | copy (orig : List Bytes)
  | put (orig : List Bytes) (p : List Nat) (words : List Bytes) (i : Nat)
  | leave
  | after
  | wait
  | send

/-- Where a caller of GetMixOutputs is: at wg.Wait (mixer.go:184), at shuffleWait.Wait (186), or holding the outputs, which he may read whenever he likes. -/
inductive GPc
  | start
  | wait
  | reading

/-- A Mixers object and its goroutines. `taken`: how many tasks were received from tasksChan. `busy`: the workers with a task, and whether they have written
the result. `calls`: the AddMessages calls so far, in the order in which
they got the mutex. `spawned`: the number of shuffleAndSend goroutines so far. `output`: the mixes whose outputs are in the output
channel (the message is a slice: it refers to the outputs, it does not contain them). `received`: the mixes whose outputs the sender has received. -/
structure State where
  mixes : Str → Option Mem
  queue : List Task
  taken : Nat
  busy : List (Nat × Task × Bool)
  holder : Option (Nat × HPc × List Messages)
  calls : List (List Messages)
  shufs : List (Nat × Str × SPc)
  spawned : Nat
  output : List Str
  received : List Str
  getters : List (Str × GPc)
  closed : Bool
  crashed : Bool

/-- Replace the memory of one mix. -/
def State.set (s : State) (n : Str) (M : Mem) : State := { s with mixes := fun n' => if n' = n then some M else s.mixes n' }

/-- A panic in any goroutine ends the process. -/
def State.crash (s : State) : State := { s with crashed := true }

/-- mixer.go:191-210 and 213-245: the goroutine `caller g` in AddMessages. -/
inductive AddStep (env : Env) (s : State) : List Ev → State → Prop
  | lock (ms : List Messages) (h : s.holder = none) :                                                             -- line 192
      AddStep env s [⟨.caller s.calls.length, .acquire .mu⟩] { s with holder := some (s.calls.length, .next, ms), calls := s.calls ++ [ms] }
  | unlock {g : Nat} (h : s.holder = some (g, .next, [])) :                                                       -- line 193
      AddStep env s [⟨.caller g, .release .mu⟩] { s with holder := none }
  | unknown {g : Nat} {m : Messages} {rest : List Messages} (h : s.holder = some (g, .next, m :: rest))           -- nil *mixState dereferenced
      (hn : s.mixes m.logicalReceiver = none) : AddStep env s [] s.crash
  | batch {g : Nat} {m : Messages} {rest : List Messages} (h : s.holder = some (g, .next, m :: rest))             -- lines 195-198
      (hn : s.mixes m.logicalReceiver ≠ none) : AddStep env s [] { s with holder := some (g, .idx m m.messages [], rest) }
  | index {g : Nat} {m : Messages} {o : Bytes} {os : List Bytes} {acc : List Task} {rest : List Messages} {M : Mem}
      (h : s.holder = some (g, .idx m (o :: os) acc, rest)) (hM : s.mixes m.logicalReceiver = some M) :           -- line 222
      AddStep env s [⟨.caller g, .read (.workload m.logicalReceiver)⟩] { s with holder := some (g, .load m o os acc (M.totalWorkload - 1), rest) }
  | load {g : Nat} {m : Messages} {o : Bytes} {os : List Bytes} {acc : List Task} {i : Int} {rest : List Messages} {M : Mem}
      (h : s.holder = some (g, .load m o os acc i, rest)) (hM : s.mixes m.logicalReceiver = some M) :             -- line 226
      AddStep env s [⟨.caller g, .read (.workload m.logicalReceiver)⟩] { s with holder := some (g, .store m o os acc i M.totalWorkload, rest) }
  | store {g : Nat} {m : Messages} {o : Bytes} {os : List Bytes} {acc : List Task} {i v : Int} {rest : List Messages} {M : Mem}
      (h : s.holder = some (g, .store m o os acc i v, rest)) (hM : s.mixes m.logicalReceiver = some M) :          -- line 226
      AddStep env s [⟨.caller g, .write (.workload m.logicalReceiver)⟩]
        { s.set m.logicalReceiver { M with totalWorkload := v - 1 } with
            holder := some (g, .idx m os (acc ++ [⟨m.logicalReceiver, o, i⟩]), rest) }
  | count {g : Nat} {m : Messages} {acc : List Task} {rest : List Messages} {M : Mem}
      (h : s.holder = some (g, .idx m [] acc, rest)) (hM : s.mixes m.logicalReceiver = some M) :                  -- lines 229-232
      AddStep env s [⟨.caller g, .read (.received m.logicalReceiver)⟩]
        { s with holder := some (g, .rstore m acc ((M.totalReceived.lookup (m.physicalSender, m.logicalSender)).getD 0), rest) }
  | counted {g : Nat} {m : Messages} {acc : List Task} {v : Int} {rest : List Messages} {M : Mem}
      (h : s.holder = some (g, .rstore m acc v, rest)) (hM : s.mixes m.logicalReceiver = some M) :                -- lines 229-232
      AddStep env s [⟨.caller g, .write (.received m.logicalReceiver)⟩]
        { s.set m.logicalReceiver { M with totalReceived := M.totalReceived.insert (m.physicalSender, m.logicalSender) (v + m.messages.length) } with
            holder := some (g, .push m.logicalReceiver acc, rest) }
  | pushClosed {g : Nat} {n : Str} {t : Task} {ts : List Task} {rest : List Messages}
      (h : s.holder = some (g, .push n (t :: ts), rest)) (hc : s.closed = true) : AddStep env s [] s.crash        -- send on closed channel
  | push {g : Nat} {n : Str} {t : Task} {ts : List Task} {rest : List Messages}
      (h : s.holder = some (g, .push n (t :: ts), rest)) (hc : s.closed = false) (hcap : s.queue.length < env.taskCap) :       -- line 201
      AddStep env s [⟨.caller g, .release (.task (s.taken + s.queue.length))⟩] { s with queue := s.queue ++ [t], holder := some (g, .push n ts, rest) }
  | check {g : Nat} {n : Str} {rest : List Messages} {M : Mem} (order : GoMap (Str × Str) Int)
      (h : s.holder = some (g, .push n [], rest)) (hM : s.mixes n = some M) (ho : order.Perm M.predecessors) :    -- lines 204, 238
      AddStep env s [] { s with holder := some (g, .check n order, rest) }
  | same {g : Nat} {n : Str} {k : Str × Str} {v : Int} {todo : GoMap (Str × Str) Int} {rest : List Messages} {M : Mem}
      (h : s.holder = some (g, .check n ((k, v) :: todo), rest)) (hM : s.mixes n = some M)
      (hv : v = (M.totalReceived.lookup k).getD 0) :                                                              -- line 239
      AddStep env s [⟨.caller g, .read (.received n)⟩] { s with holder := some (g, .check n todo, rest) }
  | differs {g : Nat} {n : Str} {k : Str × Str} {v : Int} {todo : GoMap (Str × Str) Int} {rest : List Messages} {M : Mem}
      (h : s.holder = some (g, .check n ((k, v) :: todo), rest)) (hM : s.mixes n = some M)
      (hv : v ≠ (M.totalReceived.lookup k).getD 0) :                                                              -- lines 239-240, 204-206
      AddStep env s [⟨.caller g, .read (.received n)⟩] { s with holder := some (g, .next, rest) }
  | spawn {g : Nat} {n : Str} {rest : List Messages} (h : s.holder = some (g, .check n [], rest)) :               -- line 208
      AddStep env s [⟨.caller g, .release (.spawn s.spawned)⟩]
        { s with shufs := s.shufs ++ [(s.spawned, n, .start)], spawned := s.spawned + 1, holder := some (g, .next, rest) }

/-- mixer.go:101-113: the workers. -/
inductive WorkStep (env : Env) (s : State) : List Ev → State → Prop
  | take {t : Task} {q : List Task} (w : Nat) (h : s.queue = t :: q) (hw : w < env.nCPU) (hidle : ∀ e ∈ s.busy, e.1 ≠ w) :    -- line 102
      WorkStep env s [⟨.worker w, .acquire (.task s.taken)⟩] { s with queue := q, taken := s.taken + 1, busy := s.busy ++ [(w, t, false)] }
  | panic {j w : Nat} {t : Task} (h : s.busy[j]? = some (w, t, false)) (hp : env.decrypt t.input = .error .panic) :           -- line 103
      WorkStep env s [] s.crash
  | range {j w : Nat} {t : Task} {M : Mem} (h : s.busy[j]? = some (w, t, false)) (hM : s.mixes t.mix = some M)                -- index out of range
      (hi : ¬ (0 ≤ t.idx ∧ t.idx < M.outputs.length)) : WorkStep env s [] s.crash
  | write {j w : Nat} {t : Task} {M : Mem} (h : s.busy[j]? = some (w, t, false)) (hp : env.decrypt t.input ≠ .error .panic)
      (hM : s.mixes t.mix = some M) (hi : 0 ≤ t.idx ∧ t.idx < M.outputs.length) :                                             -- line 110
      WorkStep env s [⟨.worker w, .write (.slot t.mix t.idx.toNat)⟩]
        { s.set t.mix { M with outputs := M.outputs.set t.idx.toNat (Mixer.resultOf env t.input) } with busy := s.busy.set j (w, t, true) }
  | negative {j w : Nat} {t : Task} {M : Mem} (h : s.busy[j]? = some (w, t, true)) (hM : s.mixes t.mix = some M) (hg : M.wg - 1 < 0) :
      WorkStep env s [] s.crash                                                                                               -- negative WaitGroup counter
  | done {j w : Nat} {t : Task} {M : Mem} (h : s.busy[j]? = some (w, t, true)) (hM : s.mixes t.mix = some M) (hg : ¬ M.wg - 1 < 0) :
      WorkStep env s [⟨.worker w, .release (.wg t.mix)⟩] { s.set t.mix { M with wg := M.wg - 1 } with busy := s.busy.eraseIdx j }     -- line 111

/-- mixer.go:251-271 and shuffle.go:30-43: the goroutine `shuf g` at place `j` of the list. -/
inductive ShufStep (env : Env) (s : State) : List Ev → State → Prop
  | start {j g : Nat} {n : Str} {M : Mem} (h : s.shufs[j]? = some (g, n, .start)) (hM : s.mixes n = some M) (hw : M.wg = 0) :         -- line 252
      ShufStep env s [⟨.shuf g, .acquire (.spawn g)⟩, ⟨.shuf g, .acquire (.wg n)⟩] { s with shufs := s.shufs.set j (g, n, .enter) }
  | first {j g : Nat} {n : Str} {M : Mem} (h : s.shufs[j]? = some (g, n, .enter)) (hM : s.mixes n = some M) (ho : M.once = .fresh) :  -- line 254
      ShufStep env s [] { s.set n { M with once := .running } with shufs := s.shufs.set j (g, n, .copy []) }
  | later {j g : Nat} {n : Str} {M : Mem} (h : s.shufs[j]? = some (g, n, .enter)) (hM : s.mixes n = some M) (ho : M.once = .done) :
      ShufStep env s [⟨.shuf g, .acquire (.once n)⟩] { s with shufs := s.shufs.set j (g, n, .after) }
  | copy {j g : Nat} {n : Str} {orig : List Bytes} {x : Bytes} {M : Mem} (h : s.shufs[j]? = some (g, n, .copy orig)) (hM : s.mixes n = some M)
      (hx : M.outputs[orig.length]? = some x) :                                                                                       -- shuffle.go:32
      ShufStep env s [⟨.shuf g, .read (.slot n orig.length)⟩] { s with shufs := s.shufs.set j (g, n, .copy (orig ++ [x])) }
  | draw {j g : Nat} {n : Str} {orig : List Bytes} {M : Mem} {p : List Nat} {words rest : List Bytes} (h : s.shufs[j]? = some (g, n, .copy orig))
      (hM : s.mixes n = some M) (hl : orig.length = M.outputs.length)
      (hp : Shuffle.permutation Shuffle.scripted words orig.length = .ok (p, rest)) :                                                 -- shuffle.go:34-38
      ShufStep env s [⟨.shuf g, .write (.shuffler n)⟩] { s with shufs := s.shufs.set j (g, n, .put orig p words 0) }
  | put {j g : Nat} {n : Str} {orig : List Bytes} {p : List Nat} {words : List Bytes} {i k : Nat} {x : Bytes} {M : Mem}
      (h : s.shufs[j]? = some (g, n, .put orig p words i)) (hM : s.mixes n = some M) (hi : i < M.outputs.length)
      (hk : p[i]? = some k) (hx : orig[k]? = some x) :                                                                                -- shuffle.go:41
      ShufStep env s [⟨.shuf g, .write (.slot n i)⟩]
        { s.set n { M with outputs := M.outputs.set i x } with shufs := s.shufs.set j (g, n, .put orig p words (i + 1)) }
  | badIndex {j g : Nat} {n : Str} {orig : List Bytes} {p : List Nat} {words : List Bytes} {i : Nat} {M : Mem}
      (h : s.shufs[j]? = some (g, n, .put orig p words i)) (hM : s.mixes n = some M) (hi : i < M.outputs.length)
      (hk : ∀ k, p[i]? = some k → orig[k]? = none) : ShufStep env s [] s.crash
  | signal {j g : Nat} {n : Str} {orig : List Bytes} {p : List Nat} {words : List Bytes} {i : Nat} {M : Mem}
      (h : s.shufs[j]? = some (g, n, .put orig p words i)) (hM : s.mixes n = some M) (hi : ¬ i < M.outputs.length) :                  -- line 258
      ShufStep env s [⟨.shuf g, .release (.shuffled n)⟩]
        { s.set n { M with shuffleWait := M.shuffleWait - 1 } with shufs := s.shufs.set j (g, n, .leave) }
  | leave {j g : Nat} {n : Str} {M : Mem} (h : s.shufs[j]? = some (g, n, .leave)) (hM : s.mixes n = some M) :                         -- line 260
      ShufStep env s [⟨.shuf g, .release (.once n)⟩] { s.set n { M with once := .done } with shufs := s.shufs.set j (g, n, .after) }
  | last {j g : Nat} {n : Str} {M : Mem} (h : s.shufs[j]? = some (g, n, .after)) (hM : s.mixes n = some M) (hl : M.isLastLayer = true) :
      ShufStep env s [] { s with shufs := s.shufs.eraseIdx j }                                                                        -- lines 263-265
  | waited {j g : Nat} {n : Str} {M : Mem} (h : s.shufs[j]? = some (g, n, .after)) (hM : s.mixes n = some M) (hl : M.isLastLayer = false)
      (hw : M.wg = 0) :                                                                                                               -- lines 268, 184
      ShufStep env s [⟨.shuf g, .acquire (.wg n)⟩] { s with shufs := s.shufs.set j (g, n, .wait) }
  | outputs {j g : Nat} {n : Str} {M : Mem} (h : s.shufs[j]? = some (g, n, .wait)) (hM : s.mixes n = some M) (hw : M.shuffleWait = 0) :
      ShufStep env s [⟨.shuf g, .acquire (.shuffled n)⟩] { s with shufs := s.shufs.set j (g, n, .send) }                              -- line 186
  | send {j g : Nat} {n : Str} (h : s.shufs[j]? = some (g, n, .send)) (hcap : s.output.length < env.outCap) :                         -- line 267
      ShufStep env s [⟨.shuf g, .release (.out (s.received.length + s.output.length))⟩] { s with shufs := s.shufs.eraseIdx j, output := s.output ++ [n] }

/-- The readers of the outputs (sender.go:43-56, server.go:61-69, mixer.go:273-283) and Close (mixer.go:123-125). The mutex is not needed to find a mix
(mixer.go:274-276: the map does not change), and gives no order here. -/
inductive ReadStep (s : State) : List Ev → State → Prop
  | recv {n : Str} {q : List Str} (h : s.output = n :: q) :                                                                           -- sender.go:44
      ReadStep s [⟨.sender, .acquire (.out s.received.length)⟩] { s with output := q, received := s.received ++ [n] }
  | senderRead {n : Str} {M : Mem} {i : Nat} (h : n ∈ s.received) (hM : s.mixes n = some M) (hi : i < M.outputs.length) :             -- sender.go:46-51
      ReadStep s [⟨.sender, .read (.slot n i)⟩] s
  | get {n : Str} {M : Mem} (hM : s.mixes n = some M) : ReadStep s [] { s with getters := s.getters ++ [(n, .start)] }                -- mixer.go:274-282
  | getWg {k : Nat} {n : Str} {M : Mem} (h : s.getters[k]? = some (n, .start)) (hM : s.mixes n = some M) (hw : M.wg = 0) :            -- mixer.go:184
      ReadStep s [⟨.getter k, .acquire (.wg n)⟩] { s with getters := s.getters.set k (n, .wait) }
  | getShuffled {k : Nat} {n : Str} {M : Mem} (h : s.getters[k]? = some (n, .wait)) (hM : s.mixes n = some M) (hw : M.shuffleWait = 0) :   -- mixer.go:186
      ReadStep s [⟨.getter k, .acquire (.shuffled n)⟩] { s with getters := s.getters.set k (n, .reading) }
  | getRead {k : Nat} {n : Str} {M : Mem} {i : Nat} (h : s.getters[k]? = some (n, .reading)) (hM : s.mixes n = some M)
      (hi : i < M.outputs.length) : ReadStep s [⟨.getter k, .read (.slot n i)⟩] s                                                     -- server.go:67-69
  | close (h : s.closed = false) : ReadStep s [] { s with closed := true }                                                            -- mixer.go:124
  | closed (h : s.closed = true) : ReadStep s [] s.crash                                                                              -- close of closed channel

/-- One step of any goroutine. -/
inductive Step (env : Env) (s : State) (evs : List Ev) (s' : State) : Prop
  | add (h : AddStep env s evs s')
  | work (h : WorkStep env s evs s')
  | shuf (h : ShufStep env s evs s')
  | read (h : ReadStep s evs s')

/-- An execution from `s0`: the trace of its accesses and synchronisations, and the state reached. A crash ends it. -/
inductive Exec (env : Env) (s0 : State) : List Ev → State → Prop
  | nil : Exec env s0 [] s0
  | snoc {tr evs : List Ev} {s s' : State} : Exec env s0 tr s → s.crashed = false → Step env s evs s' → Exec env s0 (tr ++ evs) s'

/-- The object just made by NewMixers (mixer.go:91-121), from that of Model/Mixer. -/
def ofNew (s : Mixer.State) : State :=
  { mixes := fun n => (s.states n).map fun ms =>
      { predecessors := ms.predecessors, isLastLayer := ms.isLastLayer, totalReceived := ms.totalReceived, totalWorkload := ms.totalWorkload,
        outputs := ms.outputs, wg := ms.wg, shuffleWait := ms.shuffleWait, once := .fresh },
    queue := [], taken := 0, busy := [], holder := none, calls := [], shufs := [], spawned := 0, output := [], received := [], getters := [],
    closed := false, crashed := false }

end Resmix.MixerFine
