import Verif.Model.VotePool
set_option autoImplicit false
/-
What a caller of ValidateVote and ReconstructDecrypter expects when several goroutines use a node: the answers of the sequential functions (Model/Ibe), on the node as it was
when the call was made.
-/
namespace Resmix.Tibe.VotePool
variable {B : Bls}

/-- The sequential functions. -/
def answer (n : Node B) : Req B → Go (Option B.G2)
  | .validate name v => (n.validateVote name v).map fun _ => none
  | .reconstruct name votes => (n.reconstructDecrypter name votes).map some

/-- The node after the shares that arrived during some events. -/
def nodeAfter (n : Node B) : List (Ev B) → Node B
  | [] => n
  | .receiveShare name sh :: es => nodeAfter (n.receiveShare name sh) es
  | _ :: es => nodeAfter n es

/-- The number of calls made during some events. -/
def callsIn : List (Ev B) → Nat
  | [] => 0
  | .call _ :: es => callsIn es + 1
  | _ :: es => callsIn es

/-- An event of the calls and workers themselves: nothing new from outside. -/
def Ev.internal : Ev B → Bool
  | .receiveShare _ _ => false
  | .call _ => false
  | _ => true

/-- Call number `c` has returned `r`. -/
def Returned (s : State B) (c : Nat) (r : Go (Option B.G2)) : Prop := ∃ cl, s.calls[c]? = some cl ∧ cl.pc = .done r

/-- All shares the node has or receives come with a polynomial that has coefficients, as the ones `NewNode` and `PolyShare`s are made of do. -/
def ProperShares (n : Node B) (es : List (Ev B)) : Prop :=
  (∀ name sh, GoMap.lookup n.shares name = some sh → sh.expoly.coefs ≠ []) ∧ ∀ name sh, Ev.receiveShare name sh ∈ es → sh.expoly.coefs ≠ []

end Resmix.Tibe.VotePool
