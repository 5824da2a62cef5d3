import Verif.Model.Network
set_option autoImplicit false
/-
What it means for an entry of a network configuration to be registered.
-/
namespace Resmix.Rrpc

/-- The entry gives the non-empty address `a` the key `k`. -/
def Registers (s : ServerData) (a : Str) (k : Bytes) : Prop := s.address = a ∧ a ≠ [] ∧ s.publickey = some k

end Resmix.Rrpc
