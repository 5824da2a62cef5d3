import Verif.Model.MixerWatch
set_option autoImplicit false
/- Vocabulary for C124. -/
namespace Resmix.MixerWatch
open Resmix.Mixer (Messages Task Env Action)

/-- The batches of the AddMessages calls made in a run. -/
def asked (es : List Ev) : List Messages := es.flatMap fun e => match e with | .ask (.add ms) => ms | _ => []

/-- All onions of these batches. -/
def askedOnions (es : List Ev) : List Bytes := (asked es).flatMap (·.messages)

/-- The number of decryptions completed in a run. -/
def finished (es : List Ev) : Nat := es.countP fun e => match e with | .act (.finish _) => true | _ => false

/-- The number of ticks of a run. -/
def ticks (es : List Ev) : Nat := es.countP fun e => match e with | .tick => true | _ => false

/-- The mutex is held by a goroutine that cannot go on: it waits for room in the task channel. -/
def Blocked (env : Env) (s : State) : Prop :=
  s.inner.crashed = false ∧ s.inner.holder ≠ none ∧ Mixer.step env s.inner .addStep = none

/-- AddMessages itself takes no time: time passes only when the mutex is free and nobody waits for it, or its holder is blocked. -/
def Prompt (env : Env) (timeout : Nat) (s : State) (es : List Ev) : Prop :=
  ∀ pre post s1, es = pre ++ .tick :: post → run env timeout s pre = some s1 → (s1.inner.holder = none ∧ s1.waiting = []) ∨ Blocked env s1

/-- Between two consecutive ticks at which the holder of the mutex is blocked (so all the workers have work), at least `r` decryptions are completed. -/
def Rate (env : Env) (timeout r : Nat) (s : State) (es : List Ev) : Prop :=
  ∀ pre mid post s1 s2, es = pre ++ .tick :: (mid ++ .tick :: post) → ticks mid = 0 → run env timeout s pre = some s1 →
    run env timeout s (pre ++ .tick :: mid) = some s2 → Blocked env s1 → Blocked env s2 → r ≤ finished mid

end Resmix.MixerWatch
