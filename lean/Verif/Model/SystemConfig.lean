import Verif.Model.Config
import Verif.Model.Topology
import Verif.Model.Network
set_option autoImplicit false
/-
Model of config/config.go:25-60, 208-246: the configurations of a whole system. The parts of a ServerConfig that Model/Config leaves out are added: mixes, keys, peers.
-/
namespace Resmix.Config
open Tibe Rrpc

/-- config.pb.go `ServerConfig` as CreateSystemConfigs fills it in: the part modelled in Model/Config, the mixes (config/config.go:214), the keys (lines 91-92) and the peers (line 44). -/
structure ServerSetup where
  base : ServerConfig
  mixes : List Str
  secretKey : Bytes
  publicKey : Bytes
  peers : List ServerData

/-- config.pb.go `SystemConfig`. -/
structure SystemSetup where
  servers : List ServerSetup
  topo : Topology

/-- config/config.go:35-41: the peers are all servers, in order, with their keys (`pk` is never nil: line 72-75). -/
def peersOf (cs : List ServerConfig) (keys : List (Bytes × Bytes)) : List ServerData :=
  List.zipWith (fun sc k => { address := sc.hostname, publickey := some k.2 }) cs keys

/-- config/config.go:25-51 `CreateSystemConfigs(addresses, polyDegree, numLayers)`: `res` is a possible result. `keys` are the pairs (secret, public) GenerateKeys returns for the
servers (line 72), `dkg` and `polys` the random polynomials. -/
def CreateSystemConfigs (B : Bls) (addresses : List Str) (polyDegree numLayers : Nat) (dkg : Poly) (polys : List Poly) (keys : List (Bytes × Bytes)) (res : Go SystemSetup) : Prop :=
  match Topology.createCascade addresses numLayers with
  | .error e => res = .error e
  | .ok top => match createConfigs B addresses polyDegree dkg polys with
    | .error e => res = .error e
    | .ok cs => ∃ mixes : List (List Str), List.Forall₂ (fun sc ms => Topology.SetMixNames top sc.hostname ms) cs mixes ∧
        res = .ok { servers := List.zipWith (fun sc (mk : List Str × (Bytes × Bytes)) =>
                      { base := sc, mixes := mk.1, secretKey := mk.2.1, publicKey := mk.2.2, peers := peersOf cs keys }) cs (mixes.zip keys)
                    topo := top }

/-- "localhost:" -/
def localhost : Str := [108, 111, 99, 97, 108, 104, 111, 115, 116, 58]

/-- config/config.go:54-57: the addresses of a local system. -/
def localAddresses (numServers : Nat) : List Str := (List.range numServers).map fun i => localhost ++ dec (5050 + i)

/-- config/config.go:53-60 `CreateLocalSystemConfigs(numServers, polyDegree, numLayers)`. -/
def CreateLocalSystemConfigs (B : Bls) (numServers polyDegree numLayers : Nat) (dkg : Poly) (polys : List Poly) (keys : List (Bytes × Bytes)) (res : Go SystemSetup) : Prop :=
  CreateSystemConfigs B (localAddresses numServers) polyDegree numLayers dkg polys keys res

/-- config/config.go:238-246 `GetServerConfig(hostname)`; `none` is nil. -/
def SystemSetup.getServerConfig (s : SystemSetup) (hostname : Str) : Option ServerSetup := s.servers.find? fun x => x.base.hostname = hostname

/-- config/config.go:222-236 `CreateCoordinator`: the network the server's coordinator works on. -/
def ServerSetup.network (s : ServerSetup) : Network := configNetwork s.peers

end Resmix.Config
