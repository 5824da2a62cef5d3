import Verif.Model.Server
set_option autoImplicit false
/-
Vocabulary for the round life cycle (C06, C07): which rounds are open is read off the calls and their responses alone.
-/
namespace Resmix.Server

/-- Round `r` after one more call and its response, given whether it was open before. -/
def openAfter (r : Nat) (before : Bool) (c : Action × Resp) : Bool :=
  match c with
  | (.newRound r' _ _, .ok) => if r' = r then true else before
  | (.endRound r', .ok) => if r' = r then false else before
  | _ => before

/-- A round is open iff its last successful NewRound was not followed by a successful EndRound. -/
def isOpen (history : List (Action × Resp)) (r : Nat) : Bool := history.foldl (openAfter r) false

/-- The round an API call is about. -/
def Action.about : Action → Option Nat
  | .newRound r _ _ => some r
  | .endRound r => some r
  | .addMessages r _ => some r
  | .getMessages r _ => some r
  | _ => none

/-- The round object a round number currently refers to. -/
def State.roundObj (s : State) (r : Nat) : Option (Nat × Mixer.State) := (s.rounds.lookup r).bind fun i => s.objs[i]?

end Resmix.Server
