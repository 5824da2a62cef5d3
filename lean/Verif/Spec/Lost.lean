import Verif.Spec.System
set_option autoImplicit false
/-
What the network and late servers lose of a round (for C143).
-/
namespace Resmix.System
open Resmix.Sender

/-- The requests of round `r` between servers that event `e` loses in state `s`: the request is dropped, or its host has not opened the round and answers NotFound (sender.go:51-53
logs the error and goes on). -/
def lostBy (r : Nat) (s : State) : Event → List Request
  | .deliver k => s.net[k]?.toList.filter fun rq => rq.round = r && (s.servers rq.host).rounds.lookup r = none
  | .drop k => s.net[k]?.toList.filter fun rq => rq.round = r
  | _ => []

/-- The client's request is not answered with NotFound: the round is open. -/
def Heard (r : Nat) (s : State) : Event → Prop
  | .client h (.addMessages r' _) => r' = r → (s.servers h).rounds.lookup r ≠ none
  | _ => True

/-- An execution whose steps satisfy `P`, with the list of the requests of round `r` it lost. -/
inductive LossyRun (c : Config) (r : Nat) (P : State → Event → Prop) (s0 : State) : List Event → List Request → State → Prop
  | nil : LossyRun c r P s0 [] [] s0
  | snoc {evs : List Event} {lost : List Request} {s s' : State} {e : Event} : LossyRun c r P s0 evs lost s → P s e → Step c s e s' →
      LossyRun c r P s0 (evs ++ [e]) (lost ++ lostBy r s e) s'

/-- Some request of the list carries onions for a mix of chain `ch`. -/
def Carries (t : Topology) (ch : Nat) (rqs : List Request) : Prop :=
  ∃ rq ∈ rqs, ∃ M ∈ rq.messages, M.messages ≠ [] ∧ ∃ l mix, t.mixAt l ch = some mix ∧ M.logicalReceiver = mix.name

end Resmix.System
