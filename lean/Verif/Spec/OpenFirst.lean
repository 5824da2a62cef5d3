import Verif.Spec.Lost
set_option autoImplicit false
/-
Clients that open a round everywhere before they use it (for C145).
-/
namespace Resmix.System

/-- The clients send onions of round `r` only to servers among `hosts`, and only after all of `hosts` were asked to open the round. -/
def OpenFirst (hosts : List Str) (r : Nat) (evs : List Event) : Prop :=
  ∀ p q h ms, evs = p ++ .client h (.addMessages r ms) :: q → h ∈ hosts ∧ ∀ h' ∈ hosts, ∃ ls order, .client h' (.newRound r ls order) ∈ p

/-- The network drops no request of round `r` (it may drop those of other rounds). -/
def Undropped (r : Nat) (s : State) : Event → Prop
  | .drop k => ∀ rq, s.net[k]? = some rq → rq.round ≠ r
  | _ => True

end Resmix.System
