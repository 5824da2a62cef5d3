import Verif.Model.GoMap
import Verif.Model.Strings
import Verif.Model.Ecc
set_option autoImplicit false
/-
Model of rrpc/network_data.go, of the erasure code set up in rrpc/coordinator.go:71-78 and of config/config.go:222-236.
-/
namespace Resmix.Rrpc
open Resmix.Ecc

/-- rrpc/network_data.go:30-33 `ServerData`; `none` is a nil key. -/
structure ServerData where
  address : Str
  publickey : Option Bytes
deriving DecidableEq, Repr

/-- rrpc/network_data.go:65-73 `Network`. -/
structure Network where
  serverAddresses : List Str
  pkToHost : GoMap Bytes Str
  hostToPK : GoMap Str Bytes
  tau : Int

namespace Network

/-- rrpc/network_data.go:128-130 `isvalid` and 122-126 `addServer`, for one entry (line 42-47). -/
def addServer (n : Network) (s : ServerData) : Network :=
  match s.publickey with
  | none => n
  | some k =>
    if s.address = [] then n
    else { n with serverAddresses := n.serverAddresses ++ [s.address]
                  hostToPK := n.hostToPK.insert s.address k
                  pkToHost := n.pkToHost.insert k s.address }

/-- sort.Strings (line 50): byte-wise lexicographic order; a total order, so the result is unique. -/
def sortStrings (l : List Str) : List Str := l.mergeSort (fun a b => decide (a ≤ b))

/-- rrpc/network_data.go:35-53 `NewNetworkData`. -/
def new (tau : Int) (confs : List ServerData) : Network :=
  let n := confs.foldl addServer { serverAddresses := [], pkToHost := [], hostToPK := [], tau := tau }
  { n with serverAddresses := sortStrings n.serverAddresses }

/-- sort.Search (Go library): smallest index in [i, j) at which `f` holds, by bisection; `fuel` is the width of the interval. -/
def searchLoop (f : Nat → Bool) : Nat → Nat → Nat → Nat
  | 0, i, _ => i
  | fuel + 1, i, j =>
    if i < j then
      let h := (i + j) / 2
      if f h then searchLoop f fuel i h else searchLoop f fuel (h + 1) j
    else i

/-- rrpc/network_data.go:75-77 `GetRelayIndex`, that is sort.SearchStrings. -/
def getRelayIndex (n : Network) (ip : Str) : Nat :=
  searchLoop (fun h => match n.serverAddresses[h]? with | some a => decide (ip ≤ a) | none => true) n.serverAddresses.length 0 n.serverAddresses.length

/-- rrpc/network_data.go:82-87 `MinimalAttestationNumber`: `int(math.Ceil(float64(Tau)/2)) + 1`; exact for |Tau| < 2^53. -/
def minimalAttestationNumber (n : Network) : Int := (n.tau + 1) / 2 + 1

/-- rrpc/network_data.go:91-96 `GetPublicKey`. -/
def getPublicKey (n : Network) (host : Str) : Go Bytes :=
  match n.hostToPK.lookup host with
  | some k => .ok k
  | none => .error (.err .notFound "unknown hots")

/-- rrpc/network_data.go:98-103 `ContainKey`. -/
def containKey (n : Network) (k : Bytes) : Bool := (n.pkToHost.lookup k).isSome

/-- rrpc/network_data.go:105-107 `MaxErrors`. -/
def maxErrors (n : Network) : Int := n.tau - 1

/-- rrpc/network_data.go:109-112 `MinimalRelayedParcels`. -/
def minimalRelayedParcels (n : Network) : Int := (n.serverAddresses.length : Int) - n.maxErrors

/-- rrpc/network_data.go:114-116 `GetHostname` (empty for an unknown key). -/
def getHostname (n : Network) (k : Bytes) : Str := (n.pkToHost.lookup k).getD []

end Network

/-- internal/ecc/reedsolomon.go:172-192 `NewRSEncoderDecoder` with klauspost `New`: an error for fewer than one data shard or a
negative number of parity shards. Not modelled: more than 256 shards. -/
def NewEcc (numShards numParities : Int) (res : Go RS) : Prop :=
  if numShards ≤ 0 ∨ numParities < 0 then res = .error eccErr
  else ∃ C : RS, (C.k : Int) = numShards ∧ (C.m : Int) = numParities ∧ res = .ok C

/-- rrpc/coordinator.go:71-78 `NewCoordinator`: the erasure code it sets up; an error becomes a panic. -/
def NewCoordinator (n : Network) (res : Go RS) : Prop :=
  ∃ e, NewEcc ((n.serverAddresses.length : Int) - n.maxErrors) n.maxErrors e ∧
    res = match e with | .ok C => .ok C | .error _ => .error .panic

/-- config/config.go:222-236 `CreateCoordinator`: the network built from the peers of a configuration. -/
def configNetwork (peers : List ServerData) : Network := Network.new ((peers.length / 2 : Nat) : Int) peers

end Resmix.Rrpc
