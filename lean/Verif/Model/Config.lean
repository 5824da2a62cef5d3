import Verif.Model.Ibe
import Verif.Model.Topology
set_option autoImplicit false
/-
Model of config/config.go. The random polynomials are arguments. Left out: the RRPC key pairs (their use is modelled in
Model/Cert), and `Peers`.
-/
namespace Resmix.Config
open Tibe

/-- config.IBEConfigs (config/config.pb.go; filled in config/config.go:84-89, 99-121). -/
structure IBEConfigs where
  vssPolynomial : Bytes
  vssExponentPolynomials : GoMap Str Bytes
  nodeToSecretShare : GoMap Str Bytes
  nodeToMasterPublicKey : GoMap Str Bytes

/-- config.ServerConfig (config/config.pb.go; filled in config/config.go:77-93). -/
structure ServerConfig where
  hostname : Str
  id : Nat
  threshold : Nat
  secretDKGShare : Bytes
  dkgPublicKeys : List Bytes
  ibe : IBEConfigs

/-- config/config.go:143-154 `DKGSetup(addresses, d)`; `dkgPoly` is the random polynomial. -/
def dkgSetup (B : Bls) (n : Nat) (dkgPoly : Poly) : List PolyShare × List Bytes :=
  let shrs := dkgPoly.createShares n
  (shrs, shrs.map fun s => (s.computePublicKey B).marshal)

/-- config/config.go:65-94: the configuration of server `i` before the VSS setup (`uint32(i)`, `uint32(polyDegree+1)`). -/
def baseConfig (address : Str) (i polyDegree : Nat) (share : PolyShare) (pkeys : List Bytes) : ServerConfig :=
  { hostname := address, id := i % 2^32, threshold := (polyDegree + 1) % 2^32, secretDKGShare := share.marshal,
    dkgPublicKeys := pkeys,
    ibe := { vssPolynomial := [], vssExponentPolynomials := [], nodeToSecretShare := [], nodeToMasterPublicKey := [] } }

/-- config/config.go:109-120: server `j` receives the material of server `i` (named `host`). -/
def giveShare (B : Bls) (host : Str) (expoly : Bytes) (sc : ServerConfig) (sh : VssShare B) : ServerConfig :=
  { sc with ibe := { sc.ibe with
      vssExponentPolynomials := sc.ibe.vssExponentPolynomials.insert host expoly
      nodeToSecretShare := sc.ibe.nodeToSecretShare.insert host sh.share.marshal
      nodeToMasterPublicKey := sc.ibe.nodeToMasterPublicKey.insert host (B.g1Bytes sh.mpk) } }

/-- config/config.go:99-121, one iteration of the outer loop: server `i` deals its shares to all servers. `shrs[0]` panics when
there are no servers (the loop body is then never run). -/
def deal (B : Bls) (configs : List ServerConfig) (i : Nat) (poly : Poly) : Go (List ServerConfig) := do
  let sci ← goIndex configs i
  let configs ← goSet configs i { sci with ibe := { sci.ibe with vssPolynomial := poly.marshal } }
  let node ← Node.new B poly
  let shrs ← node.vssShares configs.length
  let first ← goIndex shrs 0
  let expoly := first.expoly.marshal
  .ok (List.zipWith (giveShare B sci.hostname expoly) configs shrs)

/-- config/config.go:62-124 `createConfigs(addresses, polyDegree)`, with the random polynomials `dkgPoly` and `polys` (one per
server). -/
def createConfigs (B : Bls) (addresses : List Str) (polyDegree : Nat) (dkgPoly : Poly) (polys : List Poly) : Go (List ServerConfig) := do
  let (shrs, pkeys) := dkgSetup B addresses.length dkgPoly
  let base ← (addresses.zipIdx).mapM fun (a, i) => do
    let sh ← goIndex shrs i
    (.ok (baseConfig a i polyDegree sh pkeys) : Go ServerConfig)
  (polys.zipIdx).foldlM (fun cs (p, i) => deal B cs i p) base

/-- config/config.go:156-170 `CreateTIBEPublisher`: `res` is a possible result (the map order inside NewPublisher is free). -/
def CreateTIBEPublisher (B : Bls) (s : ServerConfig) (res : Go (Player B)) : Prop :=
  match (do
    let keys ← s.dkgPublicKeys.mapM (PublicKey.setBytes B)
    let priv ← PolyShare.setBytes s.secretDKGShare
    .ok (keys, priv) : Go (List (PublicKey B) × PolyShare)) with
  | .error e => res = .error e
  | .ok (keys, priv) => NewPublisher s.threshold priv keys res

/-- A missing map entry reads as nil, an empty byte slice. -/
def getBytes (m : GoMap Str Bytes) (k : Str) : Bytes := (m.lookup k).getD []

/-- config/config.go:182-203, one iteration. -/
def receive (B : Bls) (c : IBEConfigs) (n : Node B) (e : Str × Bytes) : Go (Node B) := do
  let expoly ← ExponentPoly.setBytes B e.2
  let shr ← PolyShare.setBytes (getBytes c.nodeToSecretShare e.1)
  let mpk ← B.g1SetBytes (getBytes c.nodeToMasterPublicKey e.1)
  .ok (n.receiveShare e.1 { expoly := expoly, share := shr, mpk := mpk })

/-- config/config.go:172-206 `CreateTIBENode`; `order` is the iteration order of the map of exponent polynomials. -/
def createTIBENode (B : Bls) (s : ServerConfig) (order : GoMap Str Bytes) : Go (Node B) := do
  let p ← Poly.setBytes s.ibe.vssPolynomial
  let node ← Node.new B p
  order.foldlM (receive B s.ibe) node

/-- `res` is a possible result of CreateTIBENode. -/
def CreateTIBENode (B : Bls) (s : ServerConfig) (res : Go (Node B)) : Prop :=
  ∃ order, order.Perm s.ibe.vssExponentPolynomials ∧ res = createTIBENode B s order

end Resmix.Config
