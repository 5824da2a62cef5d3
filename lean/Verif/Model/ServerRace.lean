import Verif.Model.GoMap
import Verif.Spec.Race
set_option autoImplicit false
/-
The memory accesses of a server that serves robust calls: rrpc/rrpc_server_stream.go:42-222, 247-304. What is computed is in Model/Collector, the channels are in
Model/Streams; here are the goroutines, the objects they pass on, and what they read and write.
-/
namespace Resmix.Rrpc.ServerRace
open Resmix.Race

/-- Goroutines: the handler of a stream (lines 65-90), the collector, the goroutine that runs task `t` (line 159), the goroutine that sends on a stream (line 56). -/
inductive Gor
  | stream (h : Nat)
  | collector
  | runner (t : Nat)
  | sender (j : Nat)
deriving DecidableEq

/-- Memory: a parcel with all it contains, in particular its note; a task (lines 108-114); a response, without what it shares with others;
what the responses of task `t` share beside the note: their length field and the coded message (lines 255-258), or the error (line 286); the collector's map. -/
inductive Loc
  | parcel (p : Nat)
  | task (t : Nat)
  | resp (m : Nat)
  | common (t : Nat)
  | map
deriving DecidableEq

/-- Synchronisation objects: the parcel `p` as a message on `collectorTasks` (line 87), the start of a goroutine (line 159), the response `m` as a message (line 30). -/
inductive Obj
  | queued (p : Nat)
  | spawn (t : Nat)
  | back (m : Nat)
deriving DecidableEq

abbrev Entry := Event Gor Loc Obj

/-- Where a task is: in the collector's map, dropped by the ticker (line 133), passed to a goroutine that has not begun, being run, its responses being sent. -/
inductive Phase
  | collecting
  | dropped
  | spawned
  | running
  | sending (todo : List Nat)

/-- A task: its parcels (the first one has the saved note). -/
structure Task where
  parcels : List Nat
  phase : Phase

/-- Where a response is. -/
inductive Place
  | made
  | channel
  | taken
deriving DecidableEq

/-- A response, and the memory it shares with others: the parcel whose note it points to (line 271) or whose sender's certificate it points to (line 296), and what its task's responses have in common. -/
structure Resp where
  place : Place
  refs : List Loc

/-- The server: the call ids of the parcels received so far; the parcels in `collectorTasks`; the tasks made so far; the collector's map; the task the collector has just
added a parcel to (between line 151 and the end of the loop's body); the responses made so far; the accesses so far. -/
structure State where
  parcels : List Nat
  queue : List Nat
  tasks : List Task
  open_ : GoMap Nat Nat
  cur : Option Nat
  resps : List Resp
  trace : List Entry

def State.init : State := ⟨[], [], [], [], none, [], []⟩

/-- The responses made by one goroutine, and the ids they get: lines 263-276, 288-301. -/
def ids (s : State) (n : Nat) : List Nat := (List.range n).map (s.resps.length + ·)

/-- One step of a server with `n` relays that needs `k` parcels. The lines are those of rrpc/rrpc_server_stream.go. Channels are not bounded here, and any sender may get any
response: this can only add executions. -/
inductive Step (n k : Nat) : State → State → Prop
  /-- Lines 66-87: the parcel is decoded; validateParcel (lines 93-106) takes its certificates out and puts them back; it is passed on. -/
  | recv (s : State) (h key : Nat) :
      Step n k s { s with parcels := s.parcels ++ [key], queue := s.queue ++ [s.parcels.length],
                          trace := s.trace ++ [⟨.stream h, .write (.parcel s.parcels.length)⟩, ⟨.stream h, .release (.queued s.parcels.length)⟩] }
  /-- Lines 75-82: it is not valid. -/
  | refuse (s : State) (h key : Nat) :
      Step n k s { s with parcels := s.parcels ++ [key], resps := s.resps ++ [⟨.channel, []⟩],
                          trace := s.trace ++ [⟨.stream h, .write (.parcel s.parcels.length)⟩, ⟨.stream h, .write (.resp s.resps.length)⟩, ⟨.stream h, .release (.back s.resps.length)⟩] }
  /-- Lines 140-149: the method is not known. -/
  | unknown (s : State) (p : Nat) (q : List Nat) : s.cur = none → s.queue = p :: q →
      Step n k s { s with queue := q, resps := s.resps ++ [⟨.channel, []⟩],
                          trace := s.trace ++ [⟨.collector, .acquire (.queued p)⟩, ⟨.collector, .read (.parcel p)⟩, ⟨.collector, .write (.resp s.resps.length)⟩,
                            ⟨.collector, .release (.back s.resps.length)⟩] }
  /-- Lines 140-151, 188-199: a new task. -/
  | create (s : State) (p key : Nat) (q : List Nat) : s.cur = none → s.queue = p :: q → s.parcels[p]? = some key → s.open_.lookup key = none →
      Step n k s { s with queue := q, tasks := s.tasks ++ [⟨[p], .collecting⟩], open_ := s.open_.insert key s.tasks.length, cur := some s.tasks.length,
                          trace := s.trace ++ [⟨.collector, .acquire (.queued p)⟩, ⟨.collector, .read (.parcel p)⟩, ⟨.collector, .write .map⟩, ⟨.collector, .write (.task s.tasks.length)⟩] }
  /-- Lines 140-151, 188: a task that exists. -/
  | add (s : State) (p key t : Nat) (x : Task) (q : List Nat) : s.cur = none → s.queue = p :: q → s.parcels[p]? = some key → s.open_.lookup key = some t →
      s.tasks[t]? = some x →
      Step n k s { s with tasks := s.tasks.set t { x with parcels := x.parcels ++ [p] }, queue := q, cur := some t,
                          trace := s.trace ++ [⟨.collector, .acquire (.queued p)⟩, ⟨.collector, .read (.parcel p)⟩, ⟨.collector, .read .map⟩, ⟨.collector, .write (.task t)⟩] }
  /-- Lines 152-154. -/
  | more (s : State) (t : Nat) (x : Task) : s.cur = some t → s.tasks[t]? = some x → x.parcels.length < k →
      Step n k s { s with cur := none, trace := s.trace ++ [⟨.collector, .read (.task t)⟩] }
  /-- Lines 156-159. The call id that is deleted is read from the saved note. -/
  | spawn (s : State) (t key : Nat) (x : Task) (p₀ : Nat) : s.cur = some t → s.tasks[t]? = some x → k ≤ x.parcels.length → x.parcels.head? = some p₀ → s.parcels[p₀]? = some key →
      Step n k s { s with tasks := s.tasks.set t { x with phase := .spawned }, cur := none, open_ := s.open_.erase key,
                          trace := s.trace ++ [⟨.collector, .read (.task t)⟩, ⟨.collector, .read (.parcel p₀)⟩, ⟨.collector, .write .map⟩, ⟨.collector, .release (.spawn t)⟩] }
  /-- Lines 130-135: the task is too old. -/
  | tick (s : State) (t key : Nat) (x : Task) : s.cur = none → s.open_.lookup key = some t → s.tasks[t]? = some x →
      Step n k s { s with tasks := s.tasks.set t { x with phase := .dropped }, open_ := s.open_.erase key,
                          trace := s.trace ++ [⟨.collector, .read .map⟩, ⟨.collector, .read (.task t)⟩, ⟨.collector, .write .map⟩] }
  /-- Lines 160, 224-237: the goroutine reads the parcels, takes them out of the task, and runs the method. -/
  | begin_ (s : State) (t : Nat) (x : Task) : s.tasks[t]? = some x → x.phase = .spawned →
      Step n k s { s with tasks := s.tasks.set t { x with phase := .running },
                          trace := s.trace ++ ([⟨.runner t, .acquire (.spawn t)⟩, ⟨.runner t, .read (.task t)⟩] ++ x.parcels.map (fun p => ⟨.runner t, .read (.parcel p)⟩) ++ [⟨.runner t, .write (.task t)⟩]) }
  /-- Lines 216-221, 263-276, 161-171: all responses point to the saved note; they are made and signed, which writes the note. -/
  | reply (s : State) (t : Nat) (x : Task) (p₀ : Nat) : s.tasks[t]? = some x → x.phase = .running → x.parcels.head? = some p₀ →
      Step n k s { s with tasks := s.tasks.set t { x with phase := .sending (ids s n) }, resps := s.resps ++ List.replicate n ⟨.made, [.parcel p₀, .common t]⟩,
                          trace := s.trace ++ ([⟨.runner t, .write (.common t)⟩] ++ (ids s n).map (fun m => ⟨.runner t, .write (.resp m)⟩) ++ [⟨.runner t, .write (.parcel p₀)⟩]) }
  /-- Lines 204-219, 281-304, 161-171: error responses, each with a note of its own, which is copied from the saved note, but for the sender's certificate, which they share. -/
  | fail (s : State) (t : Nat) (x : Task) (p₀ : Nat) : s.tasks[t]? = some x → x.phase = .running → x.parcels.head? = some p₀ →
      Step n k s { s with tasks := s.tasks.set t { x with phase := .sending (ids s n) }, resps := s.resps ++ List.replicate n ⟨.made, [.parcel p₀, .common t]⟩,
                          trace := s.trace ++ ([⟨.runner t, .write (.common t)⟩, ⟨.runner t, .read (.parcel p₀)⟩] ++ (ids s n).map (fun m => ⟨.runner t, .write (.resp m)⟩)) }
  /-- Lines 173-175. -/
  | send (s : State) (t m : Nat) (todo : List Nat) (x : Task) (r : Resp) : s.tasks[t]? = some x → x.phase = .sending (m :: todo) → s.resps[m]? = some r →
      Step n k s { s with tasks := s.tasks.set t { x with phase := .sending todo }, resps := s.resps.set m { r with place := .channel },
                          trace := s.trace ++ [⟨.runner t, .release (.back m)⟩] }
  /-- Lines 57-58: the response is encoded, with all it refers to. -/
  | deliver (s : State) (j m : Nat) (r : Resp) : s.resps[m]? = some r → r.place = .channel →
      Step n k s { s with resps := s.resps.set m { r with place := .taken },
                          trace := s.trace ++ ([⟨.sender j, .acquire (.back m)⟩, ⟨.sender j, .read (.resp m)⟩] ++ (r.refs.map fun l => ⟨.sender j, .read l⟩)) }

inductive Reach (n k : Nat) : State → Prop
  | init : Reach n k .init
  | step (s s' : State) : Reach n k s → Step n k s s' → Reach n k s'

end Resmix.Rrpc.ServerRace
