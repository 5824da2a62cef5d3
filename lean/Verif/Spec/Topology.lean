import Verif.Model.Topology
/-
Vocabulary for the topology properties (C01-C05).
-/
namespace Resmix.Topology

/-- The mix in layer `l` at position `i` (that is, `Layers[l].LogicalMixes[i]`), if there is one. -/
def mixAt (t : Topology) (l i : Nat) : Option LogicalMix := (t.layers[l]?).bind (·[i]?)

/-- One hop along `Successors[0]` through the name index; `none` when the name is not the name of a mix. -/
def nextMix (t : Topology) (m : LogicalMix) : Option LogicalMix := m.successors.head?.bind t.getMix

/-- One hop along `Predecessors[0]` through the name index. -/
def prevMix (t : Topology) (m : LogicalMix) : Option LogicalMix := m.predecessors.head?.bind t.getMix

/-- `k` hops. -/
def hops (step : LogicalMix → Option LogicalMix) : Nat → LogicalMix → Option LogicalMix
  | 0, m => some m
  | k + 1, m => (step m).bind (hops step k)

end Resmix.Topology
