import Mathlib.Data.List.Forall2
import Verif.Model.Base
set_option autoImplicit false
/-
Vocabulary for the erasure coding properties (C40, C41).
-/
namespace Resmix.Ecc

/-- `view` is `shards` with at most `m` shards of each chunk lost (a lost shard is an empty slice); different chunks may lose
different shards. -/
def Erasure (m : Nat) (shards view : List (List Bytes)) : Prop :=
  List.Forall₂ (fun s v => List.Forall₂ (fun a b => b = [] ∨ b = a) s v ∧ v.countP (· = []) ≤ m) shards view

end Resmix.Ecc
