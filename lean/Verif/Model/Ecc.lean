import Mathlib.Data.List.Forall2
import Verif.Model.Base
set_option autoImplicit false
/-
Model of internal/ecc/reedsolomon.go. The Reed-Solomon code itself (github.com/klauspost/reedsolomon v1.11.3) is the parameter
`RS`; its Split / Encode / Reconstruct / Join are written out, because their padding, length and error rules matter.
-/
namespace Resmix.Ecc

/-- A systematic erasure code with `k` data shards and `m` parity shards, as computed by klauspost/reedsolomon. A missing shard is
an empty byte slice, as in that library. The law `recover_spec` is the documented contract of `Reconstruct`: any `k` shards
determine all of them. `Proofs/EccCode` constructs such a code for all k ≥ 1 with k + m ≤ 256 (polynomial evaluation over
GF(2^8), which is what the library computes). Not modelled: more than 256 shards (the library then switches to another code). -/
structure RS where
  k : Nat
  m : Nat
  kpos : 0 < k
  /-- the parity shards for given data shards -/
  parity : List Bytes → List Bytes
  parity_shape : ∀ (ds : List Bytes) (n : Nat), ds.length = k → (∀ d ∈ ds, d.length = n) →
    (parity ds).length = m ∧ ∀ p ∈ parity ds, p.length = n
  /-- fill in the missing (empty) shards -/
  recover : List Bytes → List Bytes
  recover_spec : ∀ (ds : List Bytes) (n : Nat) (view : List Bytes), 0 < n → ds.length = k → (∀ d ∈ ds, d.length = n) →
    List.Forall₂ (fun v s => v = [] ∨ v = s) view (ds ++ parity ds) → k ≤ view.countP (· ≠ []) →
    recover view = ds ++ parity ds

/-- internal/ecc/reedsolomon.go:12 `NumChunks`. -/
def numChunks : Nat := 36

/-- An error of the library or of the coder; the texts are not modelled. -/
def eccErr : Fail := .err .unknown "reedsolomon"

/-- internal/ecc/reedsolomon.go:35 `errRSEncoderStopped`. -/
def stoppedErr : Fail := .err .unknown "the reed solomon encoder decoder stopped working"

/-- klauspost `Split`: k data shards of equal length (the last ones padded with zeros), followed by m zero shards. -/
def split (C : RS) (data : Bytes) : Go (List Bytes) :=
  if data.length = 0 then .error eccErr
  else
    let per := (data.length + C.k - 1) / C.k
    let padded := data ++ List.replicate (C.k * per - data.length) 0
    .ok ((List.range C.k).map (fun i => (padded.drop (i * per)).take per) ++ List.replicate C.m (List.replicate per 0))

/-- klauspost `Encode`: all shards must be present and of one non-zero length. -/
def encode (C : RS) (shards : List Bytes) : Go (List Bytes) :=
  if shards.length = C.k + C.m ∧ ∃ n ∈ shards.head?.map (·.length), 0 < n ∧ ∀ s ∈ shards, s.length = n then
    .ok (shards.take C.k ++ C.parity (shards.take C.k))
  else .error eccErr

/-- klauspost `shardSize`: the length of the first non-empty shard, 0 if there is none. -/
def shardSize : List Bytes → Nat
  | [] => 0
  | s :: rest => if s.length = 0 then shardSize rest else s.length

/-- klauspost `Reconstruct`. -/
def reconstruct (C : RS) (shards : List Bytes) : Go (List Bytes) :=
  if shards.length ≠ C.k + C.m then .error eccErr                                            -- ErrTooFewShards
  else if shardSize shards = 0 then .error eccErr                                             -- ErrShardNoData
  else if ¬ ∀ s ∈ shards, s.length = 0 ∨ s.length = shardSize shards then .error eccErr      -- ErrShardSize
  else if shards.countP (· ≠ []) = C.k + C.m then .ok shards
  else if shards.countP (· ≠ []) < C.k then .error eccErr                                     -- ErrTooFewShards
  else .ok (C.recover shards)

/-- klauspost `Join`, the scan over the data shards. -/
def joinCheck (outSize : Nat) : List Bytes → Nat → Go Unit
  | [], size => if size < outSize then .error eccErr else .ok ()                              -- ErrShortData
  | s :: rest, size =>
    if s = [] then .error eccErr                                                              -- ErrReconstructRequired
    else if outSize ≤ size + s.length then .ok ()
    else joinCheck outSize rest (size + s.length)

/-- klauspost `Join`: the first `outSize` bytes of the data shards. -/
def join (C : RS) (shards : List Bytes) (outSize : Nat) : Go Bytes :=
  if shards.length < C.k then .error eccErr
  else do
    joinCheck outSize (shards.take C.k) 0
    .ok ((shards.take C.k).flatten.take outSize)

/-- internal/ecc/reedsolomon.go:83-95 `authEncode`. -/
def authEncode (C : RS) (chunk : Bytes) : Go (List Bytes) := do
  let shards ← split C chunk
  encode C shards

/-- internal/ecc/reedsolomon.go:153-166 `authReconstruct`. -/
def authReconstruct (C : RS) (shards : List Bytes) (size : Nat) : Go Bytes := do
  let shards ← reconstruct C shards
  join C shards size

/-- internal/ecc/reedsolomon.go:45, 51-55: chunk `i` of the padded data. -/
def chunkOf (data : Bytes) (i : Nat) : Bytes :=
  let chunkSize := data.length / numChunks
  if i + 1 ≥ numChunks then data.drop (i * chunkSize) else (data.drop (i * chunkSize)).take chunkSize

/-- internal/ecc/reedsolomon.go:70-76: the response for chunk `i` arrives. -/
def encodeArrival (C : RS) (data : Bytes) (acc : List (List Bytes)) (i : Nat) : Go (List (List Bytes)) := do
  let shards ← authEncode C (chunkOf data i)
  goSet acc i shards

/-- internal/ecc/reedsolomon.go:40-81 `AuthEncode` when the workers answer in the order `order`. (Every task is answered exactly once
on the call's own channel, which has room for all answers.) -/
def authEncodeIn (C : RS) (data : Bytes) (order : List Nat) : Go (List (List Bytes)) :=
  order.foldlM (encodeArrival C (data ++ List.replicate numChunks 0)) (List.replicate numChunks [])

/-- `res` is a possible result of AuthEncode; `stopped`: whether Stop has been called by then. -/
def AuthEncode (C : RS) (stopped : Bool) (data : Bytes) (res : Go (List (List Bytes))) : Prop :=
  (stopped = true ∧ res = .error stoppedErr) ∨ ∃ order, order.Perm (List.range numChunks) ∧ res = authEncodeIn C data order

/-- `copy(dst[start:stop], src)`. -/
def copyAt (dst : Bytes) (start stop : Nat) (src : Bytes) : Bytes :=
  dst.take start ++ src.take (stop - start) ++ dst.drop (start + min (stop - start) src.length)

/-- internal/ecc/reedsolomon.go:107, 113-119: the segment of chunk `i` in `dataSize` bytes. -/
def segmentOf (dataSize : Nat) (i : Nat) : Nat × Nat :=
  let segmentSize := dataSize / numChunks
  if i + 1 ≥ numChunks then (i * segmentSize, dataSize) else (i * segmentSize, i * segmentSize + segmentSize)

/-- internal/ecc/reedsolomon.go:137-143: the response for chunk `i` arrives. -/
def decodeArrival (C : RS) (shards : List (List Bytes)) (dataSize : Nat) (data : Bytes) (i : Nat) : Go Bytes := do
  let sh ← goIndex shards i
  let s := segmentOf dataSize i
  let chunk ← authReconstruct C sh (s.2 - s.1)
  .ok (copyAt data s.1 s.2 chunk)

/-- internal/ecc/reedsolomon.go:102-150 `AuthReconstruct` when the workers answer in the order `order`. `shards[i]` panics (in the
caller's goroutine) if there are fewer than 36 chunks. -/
def authReconstructIn (C : RS) (shards : List (List Bytes)) (dataSize : Nat) (order : List Nat) : Go Bytes :=
  if shards.length < numChunks then .error .panic
  else do
    let data ← order.foldlM (decodeArrival C shards (dataSize + numChunks)) (List.replicate (dataSize + numChunks) 0)
    .ok (data.take (data.length - numChunks))

/-- `res` is a possible result of AuthReconstruct. -/
def AuthReconstruct (C : RS) (stopped : Bool) (shards : List (List Bytes)) (dataSize : Nat) (res : Go Bytes) : Prop :=
  (stopped = true ∧ res = .error stoppedErr) ∨
    ∃ order, order.Perm (List.range numChunks) ∧ res = authReconstructIn C shards dataSize order

/-- internal/ecc/reedsolomon.go:27-33 `NewShards`: everything missing. -/
def newShards (C : RS) : List (List Bytes) := List.replicate numChunks (List.replicate (C.k + C.m) [])

end Resmix.Ecc
