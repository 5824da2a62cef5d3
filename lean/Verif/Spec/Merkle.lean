import Verif.Model.Merkle
set_option autoImplicit false
/-
The byte strings hashed while a tree is built and while a proof is checked, and what a hash collision among them is. (That some
collision exists somewhere is true of every hash function; the statements name the strings that collide.)
-/
namespace Resmix.Merkle

/-- The pairs hashed when a layer is built from the layer `L`. -/
def pairsOf : List Digest → List Bytes
  | [] => []
  | [a] => [pairBytes a .zero]
  | a :: b :: t => pairBytes a b :: pairsOf t

/-- Everything hashed when the tree of `arr` is built. -/
def hashedByBuild (H : HashFn) (arr : List Bytes) : List Bytes := arr ++ (build H arr).dropLast.flatMap pairsOf

/-- The pairs hashed on the way up from digest `d` at `pos`. -/
def hashedOnPath (H : HashFn) : Nat → Digest → List Digest → List Bytes
  | _, _, [] => []
  | pos, d, s :: ss =>
    let x := if pos % 2 = 0 then pairBytes d s else pairBytes s d
    x :: hashedOnPath H (pos / 2) (H x) ss

/-- Everything hashed when the proof for element `e` at `pos` is checked. -/
def hashedByVerify (H : HashFn) (pos : Nat) (e : Bytes) (proof : List Digest) : List Bytes := e :: hashedOnPath H pos (H e) proof

/-- A string of the first list and a different one of the second have the same digest. -/
def Collision (H : HashFn) (xs ys : List Bytes) : Prop := ∃ x ∈ xs, ∃ y ∈ ys, x ≠ y ∧ H x = H y

/-- One of the strings has the all-zero digest. -/
def ZeroPreimage (H : HashFn) (ys : List Bytes) : Prop := ∃ y ∈ ys, H y = Digest.zero

end Resmix.Merkle
