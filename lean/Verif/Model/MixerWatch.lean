import Verif.Model.Mixer
set_option autoImplicit false
/-
The mutex of a round with its watchdog. mixer.go:51 uses github.com/algorand/go-deadlock: a Lock or RLock that has waited for Opts.DeadlockTimeout is taken for
a deadlock, and the process exits. internal/bparams/deadlockcheck.disabled.go:9-11 would switch this off, but no package imports internal/bparams, so the
library's defaults are in force (30 seconds; the library is not in /repo: its behaviour is an assumption here). Time passes in ticks.
-/
namespace Resmix.MixerWatch
open Resmix.Mixer (Messages Task Env Action)

/-- Who asks for the mutex: AddMessages (mixer.go:192), GetMixOutputs (mixer.go:274). -/
inductive Req
  | add (ms : List Messages)
  | get (n : Str)

/-- A round, the callers that wait for its mutex, each with the time at which it asked, and the clock. `exited`: the watchdog has ended the process. -/
structure State where
  inner : Mixer.State
  waiting : List (Req × Nat)
  clock : Nat
  exited : Bool

/-- What may happen: a step of the round that needs no mutex, or by its holder; a caller asks for the mutex; the i-th of those that wait gets it;
time passes; the watchdog of the i-th one fires. -/
inductive Ev
  | act (a : Action)
  | ask (r : Req)
  | enter (i : Nat)
  | tick
  | fire (i : Nat)

/-- One step; `none`: not possible now. A caller of GetMixOutputs releases the mutex at once (mixer.go:274-276); what it waits for then is in Model/Mixer
(`getMixOutputs`). That a waiting writer keeps later readers out is not modelled: whoever waits may be next. -/
def step (env : Env) (timeout : Nat) (s : State) (e : Ev) : Option State :=
  if s.exited ∨ s.inner.crashed then none else
  match e with
  | .act (.call _) => none
  | .act a => (Mixer.step env s.inner a).map fun m => { s with inner := m }
  | .ask r => some { s with waiting := s.waiting ++ [(r, s.clock)] }
  | .enter i =>
    match s.waiting[i]? with
    | none => none
    | some (r, _) =>
      if s.inner.holder.isSome then none
      else match r with
        | .get _ => some { s with waiting := s.waiting.eraseIdx i }
        | .add ms => (Mixer.step env s.inner (.call ms)).map fun m => { s with inner := m, waiting := s.waiting.eraseIdx i }
  | .tick => some { s with clock := s.clock + 1 }
  | .fire i =>
    match s.waiting[i]? with
    | none => none
    | some (_, t) => if t + timeout ≤ s.clock then some { s with exited := true } else none

/-- A run. -/
def run (env : Env) (timeout : Nat) : State → List Ev → Option State
  | s, [] => some s
  | s, e :: es => (step env timeout s e).bind fun s' => run env timeout s' es

/-- A new round (mixer.go:91-121). -/
def start (m : Mixer.State) : State := ⟨m, [], 0, false⟩

end Resmix.MixerWatch
