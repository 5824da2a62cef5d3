import Verif.Model.Ecc
set_option autoImplicit false
/-
What internal/ecc/reedsolomon.go:102-166 does to the caller's shards: klauspost's `Reconstruct` works in place, i.e. it stores the missing shards of a chunk into the slice it is
given (line 155), which is the caller's (line 125). Assumed: no two chunks of the caller are the same slice. (What calls that have returned may still do later is C127.)
-/
namespace Resmix.Ecc

/-- The contract of klauspost's `Reconstruct` about shards that need not belong to one encoding: what is present stays, what is missing gets the length of the others. -/
structure InPlace (C : RS) : Prop where
  keeps : ∀ view, shardSize view ≠ 0 → view.length = C.k + C.m → (∀ s ∈ view, s.length = 0 ∨ s.length = shardSize view) → C.k ≤ view.countP (· ≠ []) →
    List.Forall₂ (fun v s => s.length = shardSize view ∧ (v ≠ [] → s = v)) view (C.recover view)

/-- internal/ecc/reedsolomon.go:155: the shards of a chunk after `Reconstruct`, which stores nothing if it fails. -/
def fill (C : RS) (chunk : List Bytes) : List Bytes :=
  match reconstruct C chunk with
  | .ok s => s
  | .error _ => chunk

/-- internal/ecc/reedsolomon.go:102-150 `AuthReconstruct`: `res` is a possible result, and `after` is what the caller's shards may be then: the workers have been at the chunks in
`done`; if there is a result, at all of them. -/
def AuthReconstructMem (C : RS) (stopped : Bool) (shards : List (List Bytes)) (dataSize : Nat) (res : Go Bytes) (after : List (List Bytes)) : Prop :=
  AuthReconstruct C stopped shards dataSize res ∧ ∃ done : List Nat, (∀ i ∈ done, i < numChunks) ∧ ((∃ d, res = .ok d) → ∀ i, i < numChunks → i ∈ done) ∧
    after = shards.mapIdx fun i c => if i ∈ done then fill C c else c

end Resmix.Ecc
