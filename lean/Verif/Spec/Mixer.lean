import Verif.Model.Mixer
/-
Vocabulary for the mixer properties (C08-C13): what an execution delivered to a mix, read off the calls alone.
-/
namespace Resmix.Mixer

/-- The onions addressed to mix `n` in one batch list. -/
def onionsFor (n : Str) (ms : List Messages) : List Bytes :=
  (ms.filter fun m => m.logicalReceiver = n).flatMap (·.messages)

/-- The onions addressed to mix `n` by one action. -/
def deliveredBy (a : Action) (n : Str) : List Bytes :=
  match a with
  | .call ms => onionsFor n ms
  | _ => []

/-- The onions addressed to mix `n` by the AddMessages calls of an execution, in call order. -/
def delivered (acts : List Action) (n : Str) : List Bytes := acts.flatMap fun a => deliveredBy a n

/-- Every batch sent to mix `n` in the execution carries at least one onion. -/
def NoEmptyBatch (acts : List Action) (n : Str) : Prop :=
  ∀ a ∈ acts, ∀ ms, a = .call ms → ∀ m ∈ ms, m.logicalReceiver = n → m.messages ≠ []

/-- The onions of the batches tagged with sender `pk` among those addressed to `n`. -/
def deliveredFrom (acts : List Action) (pk : Str × Str) (n : Str) : List Bytes :=
  acts.flatMap fun a => match a with
    | .call ms => (ms.filter fun m => m.logicalReceiver = n ∧ (m.physicalSender, m.logicalSender) = pk).flatMap (·.messages)
    | _ => []

/-- Steps the program takes on its own (as opposed to new requests, or the round being closed). -/
def Action.internal : Action → Prop
  | .call _ => False
  | .close => False
  | _ => True

/-- The number of onions announced for mix `n` (an absent entry counts as zero). -/
def workloadOf (w : GoMap Str Int) (n : Str) : Nat := ((w.lookup n).getD 0).toNat

/-- `pk` = (physical, logical) sender is the only one mix `mix` waits for, and the workload announced for it agrees with the
mix's own: GENESIS for a first-layer mix, the predecessor and its host otherwise. NewRound establishes this (C06). -/
def ExpectsOnly (topo : Topology) (w : GoMap Str Int) (mix : LogicalMix) (pk : Str × Str) : Prop :=
  (mix.predecessors = [genesisName] ∧ pk = (genesisName, genesisName)) ∨
  (∃ p pm, mix.predecessors = [p] ∧ p ≠ genesisName ∧ topo.getMix p = some pm ∧ pk = (pm.hostname, p) ∧
    (w.lookup p).getD 0 = (w.lookup mix.name).getD 0)

/-- `senders` = the (physical, logical) senders mix `mix` waits for when it has several predecessors ("usually one, unless the host of
that mix failed", mixer.go:75): one per predecessor, on the predecessor's host; their announced workloads add up to the mix's own. -/
structure ExpectsAll (topo : Topology) (w : GoMap Str Int) (mix : LogicalMix) (senders : List (Str × Str)) : Prop where
  names : senders.map (·.2) = mix.predecessors
  nodup : mix.predecessors.Nodup
  inner : genesisName ∉ mix.predecessors
  hosts : ∀ pk ∈ senders, ∃ pm, topo.getMix pk.2 = some pm ∧ pm.hostname = pk.1
  total : (mix.predecessors.map fun p => (w.lookup p).getD 0).sum = (w.lookup mix.name).getD 0

/-- Requests a correct peer sends: known receivers, onions long enough to be parsed, no more onions than announced, and the
round is not closed. -/
structure GoodRequests (env : Env) (mixes : List LogicalMix) (w : GoMap Str Int) (acts : List Action) : Prop where
  receivers : ∀ a ∈ acts, ∀ ms, a = .call ms → ∀ m ∈ ms, ∃ mix ∈ mixes, mix.name = m.logicalReceiver
  onions : ∀ a ∈ acts, ∀ ms, a = .call ms → ∀ m ∈ ms, ∀ o ∈ m.messages, env.decrypt o ≠ .error .panic
  amounts : ∀ mix ∈ mixes, (delivered acts mix.name).length ≤ workloadOf w mix.name
  notClosed : .close ∉ acts

end Resmix.Mixer
