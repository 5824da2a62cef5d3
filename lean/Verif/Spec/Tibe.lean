import Mathlib.Algebra.BigOperators.Fin
import Mathlib.Algebra.BigOperators.Group.Finset.Basic
import Verif.Model.Ibe
set_option autoImplicit false
/-
Vocabulary for the threshold-IBE properties (C26-C39).
-/
namespace Resmix.Tibe

/-- `a_0 + a_1*x + ... + a_d*x^d` for the coefficient list `[a_0, ..., a_d]`. -/
def value (coefs : List Fr) (x : Fr) : Fr := ∑ j : Fin coefs.length, coefs[j] * x ^ (j : Nat)

/-- `n` has received, under `name`, a share (any index between 1 and k) of the node that owns polynomial `p`, as produced by that
node's `VssShares(k)`. -/
def HoldsShareOf {B : Bls} (n : Node B) (name : Str) (p : Poly) : Prop :=
  ∃ (owner : Node B) (k : Nat) (shares : List (VssShare B)) (s : VssShare B),
    Node.new B p = .ok owner ∧ owner.vssShares k = .ok shares ∧ s ∈ shares ∧ n.shares.lookup name = some s

/-- The honest vote for `id` of the holder of share number `i` of polynomial `p`: `H(id)` times `P(i)`. -/
def honestVote (B : Bls) (p : Poly) (id : Bytes) (i : Int) : Vote B :=
  { index := i, id := id, sig := value p.coefs (frOfInt i) • B.hashG2 id }

/-- Two different inputs with the same image. -/
def Collision {α β : Type} (f : α → β) (x y : α) : Prop := x ≠ y ∧ f x = f y

end Resmix.Tibe
