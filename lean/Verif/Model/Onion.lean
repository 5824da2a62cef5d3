import Verif.Model.Config
import Verif.Model.Mixer
set_option autoImplicit false
/-
Model of messages.go (onions, grouping, message generation) and of server.go:103-106. Randomness (scalars, IVs, messages) is an
argument. Left out: LoadOrCreateMessages / loadMessages (files and JSON).
-/
namespace Resmix.Onion
open Tibe Config

/-- golang.org/x/crypto/sha3 Sum256: an arbitrary function with 32 bytes of output. -/
structure Sha3 where
  sum : Bytes → Bytes
  len : ∀ b, (sum b).length = 32

/-- server.go:103-106 `computeId(hostname, round)`. Simplification: rounds are non-negative (requests carry a uint32). -/
def computeId (S : Sha3) (hostname : Str) (round : Nat) : Bytes := S.sum (hostname ++ dec round)

/-- messages.go:28-34 `Onion.ExtractMixConfig`: panics for fewer than 8 bytes or an address outside the topology. -/
def extractMixConfig (o : Bytes) (t : Topology) : Go LogicalMix :=
  if o.length < 8 then .error .panic
  else do
    let l ← goSlice o (o.length - 8) (o.length - 4)
    let p ← goSlice o (o.length - 4) o.length
    let layer ← goIndex t.layers (beNat l)
    goIndex layer (beNat p)

/-- messages.go:36-43 `Onion.ExtractCipher`: every failure is a panic. (`c[:len-8]` keeps the capacity of `c`, so for short onions
the first two slice expressions of SetBytes may succeed in Go where they fail here; the third then panics, so the outcome is the
same.) -/
def extractCipher (B : Bls) (o : Bytes) : Go (Cipher B) :=
  if o.length < 8 then .error .panic
  else match Cipher.setBytes B (o.take (o.length - 8)) with
    | .ok c => .ok c
    | .error _ => .error .panic

/-- mixer.go:103-104: what a worker computes from an onion, given the private key of the round. -/
def peel {B : Bls} (sk : B.G2) (o : Bytes) : Go Bytes := do
  let c ← extractCipher B o
  (decrypt sk c).1

/-- messages.go:50-58, 68-77: one iteration of the grouping loop. The capacity hint `len(onions)/numServers` divides by zero (panics)
when the first layer has no mixes. -/
def groupStep (key : LogicalMix → Str) (t : Topology) (numServers : Nat) (m : GoMap Str (List Bytes)) (o : Bytes) :
    Go (GoMap Str (List Bytes)) :=
  match extractMixConfig o t with
  | .error e => .error e
  | .ok mix =>
    match m.lookup (key mix) with
    | none => if numServers = 0 then .error .panic else .ok (m.insert (key mix) [o])
    | some l => .ok (m.insert (key mix) (l ++ [o]))

/-- messages.go:45-61 and 63-80: `GroupOnionsByMixName` (key = Name) and `GroupOnionsByHostname` (key = Hostname). -/
def groupBy (key : LogicalMix → Str) (onions : List Bytes) (t : Topology) : Go (GoMap Str (List Bytes)) :=
  match t.layers[0]? with
  | none => .error .panic
  | some first => onions.foldlM (groupStep key t first.length) []

/-- messages.go:45-61. -/
def groupOnionsByMixName (onions : List Bytes) (t : Topology) : Go (GoMap Str (List Bytes)) := groupBy (fun m => m.name) onions t

/-- messages.go:63-80. -/
def groupOnionsByHostname (onions : List Bytes) (t : Topology) : Go (GoMap Str (List Bytes)) := groupBy (fun m => m.hostname) onions t

/-- messages.go:20-24 `MessageGenerator`. -/
structure Generator (B : Bls) where
  topo : Topology
  mpks : GoMap Str B.G1

/-- messages.go:114-121: one iteration; an error is turned into a panic. -/
def addMpk (B : Bls) (m : GoMap Str B.G1) (e : Str × Bytes) : Go (GoMap Str B.G1) :=
  match B.g1SetBytes e.2 with
  | .ok k => .ok (m.insert e.1 k)
  | .error _ => .error .panic

/-- messages.go:107-124 `NewMessageGenerator`; `order` is the iteration order of the map. -/
def newGenerator (B : Bls) (topo : Topology) (order : GoMap Str Bytes) : Go (Generator B) := do
  let mpks ← order.foldlM (addMpk B) []
  .ok { topo := topo, mpks := mpks }

/-- `res` is a possible result of NewMessageGenerator for these configurations. -/
def NewGenerator (B : Bls) (topo : Topology) (configs : List ServerConfig) (res : Go (Generator B)) : Prop :=
  match configs with
  | [] => res = .error .panic
  | c :: _ => ∃ order, order.Perm c.ibe.nodeToMasterPublicKey ∧ res = newGenerator B topo order

/-- messages.go:93-104: the serialised onion. -/
def onionBytes {B : Bls} (c : Cipher B) (layer pos : Nat) : Bytes := c.toBuffer ++ be32 layer ++ be32 pos

variable {B : Bls}

/-- messages.go:82-105 `onionWrap(round, layer, posInLayer, msg, mpk)`; `layer`, `pos` are uint32. -/
def onionWrap (S : Sha3) (G : Generator B) (rnd : Fr × Bytes) (round layer pos : Nat) (msg : Bytes) (mpk : B.G1) : Go Bytes := do
  let lay ← goIndex G.topo.layers layer
  let mix ← goIndex lay pos
  let c ← encrypt B mpk rnd.1 rnd.2 (computeId S mix.hostname round) msg
  .ok (onionBytes c layer pos)

/-- messages.go:243-250: the loop from layer i-1 down to layer 0; `rnd i` is the randomness used for layer `i`. A missing master
public key is a nil pointer, which `Encrypt` dereferences. -/
def wrapLayers (S : Sha3) (G : Generator B) (round chain : Nat) (rnd : Nat → Fr × Bytes) : Nat → Bytes → Go Bytes
  | 0, onion => .ok onion
  | i + 1, onion => do
    let lay ← goIndex G.topo.layers i
    let mix ← goIndex lay chain
    match G.mpks.lookup mix.hostname with
    | none => .error .panic
    | some mpk =>
      match onionWrap S G (rnd i) round (i % 2^32) (chain % 2^32) onion mpk with
      | .ok o => wrapLayers S G round chain rnd i o
      | .error _ => .error .panic

/-- messages.go:234-256: one onion per chosen chain; `rnd k i` is the randomness for the k-th onion, layer `i`. -/
def wrapChains (S : Sha3) (G : Generator B) (msg : Bytes) (round : Nat) (chains : List Nat) (rnd : Nat → Nat → Fr × Bytes) : Go (List Bytes) :=
  (chains.zipIdx).mapM fun (chain, k) => wrapLayers S G round chain (rnd k) G.topo.layers.length msg

end Resmix.Onion
