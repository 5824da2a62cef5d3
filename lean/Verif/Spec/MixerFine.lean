import Verif.Spec.Mixer
import Verif.Model.MixerFine
set_option autoImplicit false
/- Vocabulary for C123. -/
namespace Resmix.MixerFine
open Resmix.Mixer (Messages Action Env)

/-- The AddMessages calls of an execution of Model/Mixer. -/
def callsOf (acts : List Action) : List (List Messages) := acts.filterMap fun a => match a with | .call ms => some ms | _ => none

/-- The onions addressed to mix `n` by these AddMessages calls. -/
def onionsOf (calls : List (List Messages)) (n : Str) : List Bytes := calls.flatMap (Mixer.onionsFor n)

/-- The same, of the batches tagged with sender `pk`. -/
def onionsFrom (calls : List (List Messages)) (pk : Str × Str) (n : Str) : List Bytes :=
  calls.flatMap fun ms => (ms.filter fun m => m.logicalReceiver = n ∧ (m.physicalSender, m.logicalSender) = pk).flatMap (·.messages)

/-- A step the process takes on its own, without a new call: a goroutine that holds the mutex of AddMessages, a worker or a shuffleAndSend goroutine goes on,
the sender receives, a caller of GetMixOutputs returns from Wait. (Readers looking at outputs they hold, new calls and Close are not such steps.) -/
inductive Own (env : Env) (s : State) (evs : List Ev) (s' : State) : Prop
  | add (h : AddStep env s evs s') (hh : s.holder ≠ none)
  | work (h : WorkStep env s evs s')
  | shuf (h : ShufStep env s evs s')
  | read (h : ReadStep s evs s') (ha : ∃ e ∈ evs, ∃ y, e.op = .acquire y)

/-- `k` such steps, one after the other. -/
inductive OwnRun (env : Env) (s : State) : Nat → State → Prop
  | nil : OwnRun env s 0 s
  | snoc {k : Nat} {s1 s2 : State} {evs : List Ev} : OwnRun env s k s1 → s1.crashed = false → Own env s1 evs s2 → OwnRun env s (k + 1) s2

/-- The process has come to rest: it can do nothing until the next call. -/
def Rest (env : Env) (s : State) : Prop := s.crashed = false ∧ ∀ evs s', ¬ Own env s evs s'

end Resmix.MixerFine
