import Verif.Model.Base
import Verif.Model.GoMap
set_option autoImplicit false
/-
Model of internal/crypto/merklearray (merkle.go, partial.go, layer.go) and of internal/crypto/util.go:29-94.

Objects to be hashed are represented by the bytes their ToBeHashed method writes; the HashID it returns is dropped by `hashRep`
(internal/crypto/util.go:46-49) and therefore does not occur here.
-/
namespace Resmix.Merkle

/-- internal/crypto/util.go:52-55 `Digest`: 32 bytes. -/
abbrev Digest := { b : Bytes // b.length = 32 }

/-- The zero value of a digest. -/
def Digest.zero : Digest := ⟨List.replicate 32 0, by simp⟩

/-- internal/crypto/util.go:86-94 `Hash`/`HashObj`: SHA-512/256, an arbitrary function to digests. -/
abbrev HashFn := Bytes → Digest

/-- internal/crypto/merklearray/layer.go:36-41 `pair.ToBeHashed`: the right digest comes first. -/
def pairBytes (l r : Digest) : Bytes := r.1 ++ l.1

/-- internal/crypto/merklearray/layer.go:46-57 `layer.up`; a missing right sibling is the zero digest. -/
def layerUp (H : HashFn) : List Digest → List Digest
  | [] => []
  | [a] => [H (pairBytes a .zero)]
  | a :: b :: t => H (pairBytes a b) :: layerUp H t

/-- internal/crypto/merklearray/merkle.go:27-32 `Tree`: level 0 is the leaves. -/
abbrev Tree := List (List Digest)

/-- internal/crypto/merklearray/merkle.go:56-58: layers are added while the top layer has more than one digest. A layer shrinks at
every step, so its length is enough fuel. -/
def buildUp (H : HashFn) : Nat → List Digest → Tree
  | 0, top => [top]
  | fuel + 1, top => if top.length > 1 then top :: buildUp H fuel (layerUp H top) else [top]

/-- internal/crypto/merklearray/merkle.go:39-62 `Build` (`Get` does not fail for positions below `Length`). -/
def build (H : HashFn) (arr : List Bytes) : Tree :=
  if arr.length > 0 then buildUp H arr.length (arr.map H) else []

/-- internal/crypto/merklearray/merkle.go:65-73 `Root`. -/
def root (t : Tree) : Go Digest :=
  match t.getLast? with
  | none => .ok .zero
  | some top => goIndex top 0

/-- internal/crypto/merklearray/partial.go:29-32 `siblings`. -/
structure Siblings where
  tree : Option Tree
  hints : List Digest

/-- internal/crypto/merklearray/partial.go:36-59 `siblings.get`. -/
def Siblings.get (s : Siblings) (l i : Nat) : Go (Digest × Siblings) :=
  match s.tree with
  | none => match s.hints with
    | h :: hs => .ok (h, { s with hints := hs })
    | [] => .error (.err .unknown "no more sibling hints")
  | some t => match t[l]? with
    | none => .error (.err .unknown "level beyond tree height")
    | some layer =>
      let res := layer.getD i .zero
      .ok (res, { s with hints := s.hints ++ [res] })

/-- internal/crypto/merklearray/partial.go:64-69 `partialLayer`, `layerItem`: position and digest. Positions are uint64; the
operations used (xor 1, halving, parity, comparison) do not overflow, so natural numbers are exact. -/
abbrev PartialLayer := List (Nat × Digest)

/-- internal/crypto/merklearray/partial.go:103-118: the item of the next layer; without `doHash` its digest is zero. -/
def nextItem (H : HashFn) (doHash : Bool) (pos : Nat) (posHash siblingHash : Digest) : Nat × Digest :=
  (pos / 2, if doHash then (if pos % 2 = 0 then H (pairBytes posHash siblingHash) else H (pairBytes siblingHash posHash)) else .zero)

/-- `pos ^ 1` (internal/crypto/merklearray/partial.go:87). -/
def siblingPos (pos : Nat) : Nat := pos ^^^ 1

/-- internal/crypto/merklearray/partial.go:80-127 `partialLayer.up`. -/
def plUp (H : HashFn) (doHash : Bool) (l : Nat) : Siblings → PartialLayer → Go (PartialLayer × Siblings)
  | s, [] => .ok ([], s)
  | s, [(pos, h)] => do
    let (sib, s') ← s.get l (siblingPos pos)
    .ok ([nextItem H doHash pos h sib], s')
  | s, (pos, h) :: (pos', h') :: rest =>
    if pos' = siblingPos pos then do
      let (out, s') ← plUp H doHash l s rest
      .ok (nextItem H doHash pos h h' :: out, s')
    else do
      let (sib, s') ← s.get l (siblingPos pos)
      let (out, s'') ← plUp H doHash l s' ((pos', h') :: rest)
      .ok (nextItem H doHash pos h sib :: out, s'')

/-- internal/crypto/merklearray/merkle.go:91-106: the first partial layer of a proof. `prev` is the position appended last. -/
def proveItems (leaves : List Digest) : Option Nat → List Nat → Go PartialLayer
  | _, [] => .ok []
  | prev, pos :: rest =>
    match leaves[pos]? with
    | none => .error (.err .unknown "pos larger than leaf count")
    | some h => if prev = some pos then proveItems leaves prev rest else do
      let out ← proveItems leaves (some pos) rest
      .ok ((pos, h) :: out)

/-- internal/crypto/merklearray/merkle.go:112-118: levels l, l+1, ... (`n` of them) of the proof. -/
def proveLoop (H : HashFn) : Nat → Nat → Siblings → PartialLayer → Go (PartialLayer × Siblings)
  | 0, _, s, pl => .ok (pl, s)
  | n + 1, l, s, pl => do
    let (pl', s') ← plUp H false l s pl
    proveLoop H n (l + 1) s' pl'

/-- sort.Slice of uint64 positions (internal/crypto/merklearray/merkle.go:89). -/
def sortNats (l : List Nat) : List Nat := l.mergeSort (fun a b => decide (a ≤ b))

/-- internal/crypto/merklearray/merkle.go:79-133 `Prove`. -/
def prove (H : HashFn) (t : Tree) (idxs : List Nat) : Go (List Digest) :=
  if idxs.length = 0 then .ok []
  else match t with
    | [] => .error (.err .unknown "proving in zero-length commitment")
    | leaves :: upper => do
      let pl ← proveItems leaves none (sortNats idxs)
      let (pl', s) ← proveLoop H upper.length 0 { tree := some t, hints := [] } pl
      if pl'.length ≠ 1 then .error (.err .unknown "internal error: partial layer") else .ok s.hints

/-- internal/crypto/merklearray/merkle.go:163-173: the loop of `Verify` at level `l`. It leaves by an error once l > 64; `fuel`
bounds the number of levels tried. -/
def verifyLoop (H : HashFn) : Nat → Nat → Siblings → PartialLayer → Go PartialLayer
  | 0, _, _, _ => .error (.err .unknown "Verify exceeded 64 levels")
  | fuel + 1, l, s, pl =>
    if s.hints.length > 0 ∨ pl.length > 1 then do
      let (pl', s') ← plUp H true l s pl
      if l > 64 then .error (.err .unknown "Verify exceeded 64 levels")
      else verifyLoop H fuel (l + 1) s' pl'
    else .ok pl

/-- sort.Slice by position (internal/crypto/merklearray/merkle.go:157); the positions are the keys of a map, hence distinct. -/
def sortItems (pl : PartialLayer) : PartialLayer := pl.mergeSort (fun a b => decide (a.1 ≤ b.1))

/-- internal/crypto/merklearray/merkle.go:140-181 `Verify`. The order of the entries of `elems` is the iteration order of the map. -/
def verify (H : HashFn) (rt : Digest) (elems : GoMap Nat Bytes) (proof : List Digest) : Go Unit :=
  if elems.length = 0 then
    if proof.length ≠ 0 then .error (.err .unknown "non-empty proof for empty set of elements") else .ok ()
  else do
    let pl ← verifyLoop H 67 0 { tree := none, hints := proof } (sortItems (elems.map fun e => (e.1, H e.2)))
    let r ← goIndex pl 0
    if r.1 ≠ 0 ∨ r.2 ≠ rt then .error (.err .unknown "root mismatch") else .ok ()

end Resmix.Merkle
