import Verif.Model.Onion
import Verif.Spec.Topology
set_option autoImplicit false
/-
Vocabulary for the onion and sender properties (C17-C25, C70).
-/
namespace Resmix.Onion

/-- The last eight bytes of `o` are two big-endian 32-bit numbers `l`, `p`, and `m` is the mix at position `p` of layer `l`. -/
def Addresses (t : Topology) (o : Bytes) (m : LogicalMix) : Prop :=
  ∃ (body : Bytes) (l p : Nat), l < 2 ^ 32 ∧ p < 2 ^ 32 ∧ o = body ++ be32 l ++ be32 p ∧ t.mixAt l p = some m

/-- `o` addresses some mix whose `key` (name or host) is `k`. -/
def AddressesKey (t : Topology) (key : LogicalMix → Str) (k : Str) (o : Bytes) : Prop := ∃ m, Addresses t o m ∧ key m = k

open Classical in
/-- The onions that go to `k`, in their original order. -/
noncomputable def onionsFor (t : Topology) (key : LogicalMix → Str) (onions : List Bytes) (k : Str) : List Bytes :=
  onions.filter fun o => decide (AddressesKey t key k o)

/-- `o`, standing before layer `l`, is opened layer after layer along chain `c`: it addresses the mix at position `c` of layer `l`, that
mix's host opens it (`open_ host`), and so on up to layer `L`, where `msg` comes out. -/
inductive Peels (t : Topology) (open_ : Str → Bytes → Go Bytes) (L c : Nat) (msg : Bytes) : Nat → Bytes → Prop
  | done : Peels t open_ L c msg L msg
  | layer {l : Nat} {o o' : Bytes} {m : LogicalMix} : l < L → t.mixAt l c = some m → Addresses t o m → open_ m.hostname o = .ok o' →
      Peels t open_ L c msg (l + 1) o' → Peels t open_ L c msg l o

end Resmix.Onion
