import Verif.Model.GoMap
import Verif.Model.Strings
/-
Model of config/topology.go and of the parts of config/config.go that deal with mixes.
-/
namespace Resmix

/-- config.LogicalMix (config/config.pb.go; fields set in config/topology.go:31-40). Simplification: `ServerIndex` and `Layer`
are int32 in Go and `Nat` here (no truncation is modelled: fewer than 2^31 layers and servers). -/
structure LogicalMix where
  hostname : Str
  name : Str
  serverIndex : Nat
  layer : Nat
  predecessors : List Str
  successors : List Str
deriving DecidableEq, Repr, Inhabited

/-- config.Topology: `Layers[l].LogicalMixes[i]`, and the map `Mixes` from names to pointers to the very same mix objects.
A pointer is modelled by the pair (layer number, position), so that later updates of the mix (predecessors, successors) are
visible through the map as they are in Go. -/
structure Topology where
  layers : List (List LogicalMix)
  mixes : GoMap Str (Nat × Nat)
deriving Repr

namespace Topology

/-- config/topology.go:28-40: the mix object created for position `i` of layer `layerNum`; `mixPos := (i+layerNum) % n`. -/
def newMix (hostnames : List Str) (layerNum : Nat) (i : Fin hostnames.length) : LogicalMix :=
  let mixPos := (i + layerNum) % hostnames.length
  { hostname := hostnames[mixPos]'(Nat.mod_lt _ (Nat.lt_of_le_of_lt (Nat.zero_le _) i.isLt))
    name := mixNameOf layerNum mixPos
    serverIndex := mixPos
    layer := layerNum
    predecessors := []
    successors := [] }

/-- config/topology.go:23-44 `createLayer`: append a layer and enter its mixes into the name index (a later mix of the same
name would overwrite an earlier one, line 42). -/
def createLayer (x : Topology) (hostnames : List Str) : Topology :=
  let layerNum := x.layers.length
  let layer := (List.finRange hostnames.length).map (newMix hostnames layerNum)
  { layers := x.layers ++ [layer]
    mixes := (List.finRange hostnames.length).foldl
      (fun m i => m.insert (newMix hostnames layerNum i).name (layerNum, i.val)) x.mixes }

/-- config/topology.go:13-15 the loop calling createLayer numLayers times. -/
def createLayers (hostnames : List Str) : Nat → Topology → Topology
  | 0, x => x
  | k + 1, x => createLayers hostnames k (createLayer x hostnames)

/-- config/topology.go:48-60 `SetPredecessors`. -/
def setPredecessors (x : Topology) : Go Topology := do
  let layers ← x.layers.zipIdx.mapM fun (layer, layerNum) =>
    layer.zipIdx.mapM fun (mix, i) =>
      if layerNum = 0 then (.ok { mix with predecessors := [genesisName] } : Go LogicalMix)
      else do
        let prev ← goIndex x.layers (layerNum - 1)
        let pm ← goIndex prev i
        .ok { mix with predecessors := mix.predecessors ++ [pm.name] }
  .ok { x with layers := layers }

/-- config/topology.go:62-74 `SetSuccessors`. -/
def setSuccessors (x : Topology) : Go Topology := do
  let layers ← x.layers.zipIdx.mapM fun (layer, layerNum) =>
    layer.zipIdx.mapM fun (mix, i) =>
      if layerNum = x.layers.length - 1 then (.ok { mix with successors := [genesisName] } : Go LogicalMix)
      else do
        let nxt ← goIndex x.layers (layerNum + 1)
        let nm ← goIndex nxt i
        .ok { mix with successors := mix.successors ++ [nm.name] }
  .ok { x with layers := layers }

/-- config/topology.go:7-21 `CreateCascadeTopology(servers, numLayers)` for numLayers ≥ 0 (make with a negative capacity
panics). -/
def createCascade (servers : List Str) (numLayers : Nat) : Go Topology := do
  let t := createLayers servers numLayers { layers := [], mixes := [] }
  let t ← setPredecessors t
  setSuccessors t

/-- config/topology.go:75-77 `GetMix(name)`; `none` is the nil pointer of a missing map entry. -/
def getMix (x : Topology) (name : Str) : Option LogicalMix := do
  let (l, i) ← x.mixes.lookup name
  let layer ← x.layers[l]?
  layer[i]?

/-- config/config.go:209-215: the names collected while ranging over the map, in the order `order` the runtime happens to
iterate. -/
def collectMixNames (x : Topology) (host : Str) (order : GoMap Str (Nat × Nat)) : List Str :=
  (order.filter fun e => (x.getMix e.1).any (fun m => m.hostname = host)).map Prod.fst

/-- Contract of `sort.Slice(xs, less)` (Go library; not stable): the result is a permutation in which no later element is less
than an earlier one. -/
def SortedBy {α : Type} (less : α → α → Bool) (inp out : List α) : Prop :=
  out.Perm inp ∧ out.Pairwise (fun a b => less b a = false)

/-- config/config.go:217-219 the comparison used by `setMixNames`. -/
def layerLess (x : Topology) (a b : Str) : Bool :=
  match x.getMix a, x.getMix b with
  | some ma, some mb => ma.layer < mb.layer
  | _, _ => false

/-- config/config.go:208-220 `setMixNames`: `out` is a possible value of `s.Mixes` (= `GetMixesSortedByLayer`,
config.go:248-250) for some map iteration order and some result allowed by the contract of sort.Slice. -/
def SetMixNames (x : Topology) (host : Str) (out : List Str) : Prop :=
  ∃ order, order.Perm x.mixes ∧ SortedBy (layerLess x) (collectMixNames x host order) out

end Topology
end Resmix
