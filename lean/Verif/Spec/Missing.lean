import Verif.Spec.Lost
set_option autoImplicit false
/-
Which of the clients' requests of a round a server accepted (for C146).
-/
namespace Resmix.System
open Resmix.Sender

/-- An execution with all its events, those events without the clients' AddMessages requests of round `r` that were answered with NotFound (server.go:174-177: the round was not open
at that server), and the list of the requests between servers it lost. -/
inductive HeardRun (c : Config) (r : Nat) (s0 : State) : List Event → List Event → List Request → State → Prop
  | nil : HeardRun c r s0 [] [] [] s0
  | snoc {evs got : List Event} {lost : List Request} {s s' : State} {e : Event} : HeardRun c r s0 evs got lost s → Heard r s e → Step c s e s' →
      HeardRun c r s0 (evs ++ [e]) (got ++ [e]) (lost ++ lostBy r s e) s'
  | unheard {evs got : List Event} {lost : List Request} {s s' : State} {e : Event} : HeardRun c r s0 evs got lost s → ¬ Heard r s e → Step c s e s' →
      HeardRun c r s0 (evs ++ [e]) got lost s'

end Resmix.System
