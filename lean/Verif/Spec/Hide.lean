import Verif.Spec.System
import Mathlib.SetTheory.Cardinal.Finite
set_option autoImplicit false
/-
Vocabulary for the anonymity properties (C114 ff.): what an observer of a mix, or of the whole system, sees, and which executions he cannot tell apart.
-/
namespace Resmix.Shuffle

/-- In how many of the (2^32)^n ways of drawing n random words (n = length of `inp`; shuffle.go draws one 4-byte word per element) a fresh shuffler turns
`inp` into `out`. -/
noncomputable def ways {α : Type} (inp out : List α) : Nat :=
  Nat.card { ws : Fin inp.length → Fin (2 ^ 32) //
    ∃ shf, shuffleOnions (newShuffler scripted (List.ofFn fun k => be32 (ws k).val)) inp = .ok (out, shf) }

end Resmix.Shuffle

namespace Resmix.Mixer

/-- What the key of the round finds in an onion (nothing, if it does not open). -/
def opened (env : Env) (o : Bytes) : Bytes :=
  match env.decrypt o with
  | .ok r => r
  | .error _ => []

/-- `env'` is the same machine with another key, under which the onions delivered in `acts` have other contents: the same onions are unparsable, and in
every mix that received all it was announced the contents are the same up to their order: it is only exchanged which onion contains what. -/
structure Exchanged (env env' : Env) (w : GoMap Str Int) (acts : List Action) : Prop where
  nCPU : env'.nCPU = env.nCPU
  taskCap : env'.taskCap = env.taskCap
  outCap : env'.outCap = env.outCap
  panics : ∀ n, ∀ o ∈ delivered acts n, env'.decrypt o = .error .panic ↔ env.decrypt o = .error .panic
  contents : ∀ n, (delivered acts n).length = workloadOf w n → ((delivered acts n).map (opened env')).Perm ((delivered acts n).map (opened env))

/-- The same step, except for the random words a shuffle may use. -/
inductive SameButWords : Action → Action → Prop
  | same (a : Action) : SameButWords a a
  | words (i : Nat) (w w' : List Bytes) : SameButWords (.shuffle i w) (.shuffle i w')

/-- Everything that leaves a round object is the same: the batches forwarded, the answers of GetMixOutputs (including whether it blocks) and whether the
process lives; and its goroutines are at the same points, holding the same onions. -/
structure LooksSame (s s' : State) : Prop where
  sent : s'.sent = s.sent
  output : s'.output = s.output
  answers : ∀ n, getMixOutputs s' n = getMixOutputs s n
  crashed : s'.crashed = s.crashed
  queue : s'.queue = s.queue
  busy : s'.busy = s.busy
  holder : s'.holder = s.holder
  shufs : s'.shufs = s.shufs
  closed : s'.closed = s.closed

/-- In how many of the (2^32)^k ways of drawing `k` random words the `i`-th shuffleAndSend goroutine, running now, makes `out` the answer for mix `n`. -/
noncomputable def shuffleWays (env : Env) (s : State) (i k : Nat) (n : Str) (out : List Bytes) : Nat :=
  Nat.card { ws : Fin k → Fin (2 ^ 32) //
    ∃ s1, step env s (.shuffle i (List.ofFn fun j => be32 (ws j).val)) = some s1 ∧ getMixOutputs s1 n = some (.ok out) }

/-- The `i`-th shuffleAndSend goroutine is about to shuffle mix `n`: it can run, and the outputs of `n` are not available before. -/
structure AboutToShuffle (env : Env) (s : State) (i : Nat) (n : Str) : Prop where
  goroutine : s.shufs[i]? = some ⟨n, false⟩
  ready : step env s (.shuffle i []) ≠ none
  before : getMixOutputs s n = none

end Resmix.Mixer

namespace Resmix.System
open Resmix.Mixer (LooksSame)

/-- The same configuration except for the keys that the hosts of `H` use in round `r`. -/
structure Rekeyed (H : Str → Prop) (r : Nat) (c c' : Config) : Prop where
  topo : c'.topo = c.topo
  connected : c'.connected = c.connected
  env : ∀ h r', ¬ (H h ∧ r' = r) → c'.env h r' = c.env h r'
  nCPU : ∀ h, (c'.env h r).nCPU = (c.env h r).nCPU
  taskCap : ∀ h, (c'.env h r).taskCap = (c.env h r).taskCap
  outCap : ∀ h, (c'.env h r).outCap = (c.env h r).outCap

/-- The same event, except for the random words a shuffle of a host of `H` may use. -/
inductive SameEvent (H : Str → Prop) : Event → Event → Prop
  | same (e : Event) : SameEvent H e e
  | words (h : Str) (i j : Nat) (w w' : List Bytes) : H h → SameEvent H (.work h (.work i (.shuffle j w))) (.work h (.work i (.shuffle j w')))

/-- What everybody except the hosts of `H` sees: all requests in flight, the whole state of every host not in `H`; and of a host in `H` everything but
the contents of the outputs it has not shuffled yet. -/
structure SameView (H : Str → Prop) (s s' : State) : Prop where
  net : s'.net = s.net
  others : ∀ h, ¬ H h → s'.servers h = s.servers h
  connections : ∀ h, (s'.servers h).connections = (s.servers h).connections
  rounds : ∀ h, (s'.servers h).rounds = (s.servers h).rounds
  waiting : ∀ h, (s'.servers h).waiting = (s.servers h).waiting
  crashed : ∀ h, (s'.servers h).crashed = (s.servers h).crashed
  objs : ∀ h, List.Forall₂ (fun p p' => p'.1 = p.1 ∧ LooksSame p.2 p'.2) (s.servers h).objs (s'.servers h).objs

/-- An execution, with the state after every event. -/
inductive Trace (c : Config) (s0 : State) : List (Event × State) → State → Prop
  | nil : Trace c s0 [] s0
  | snoc {tr : List (Event × State)} {s s' : State} {e : Event} : Trace c s0 tr s → Step c s e s' → Trace c s0 (tr ++ [(e, s')]) s'

/-- Onion `o`, sent over chain `ch`, as it stands before layer `l` (opened with the keys of round `r`). -/
def before (c : Config) (r ch : Nat) : Nat → Bytes → Bytes
  | 0, o => o
  | l + 1, o => match c.topo.mixAt l ch with
    | some m => Mixer.opened (c.env m.hostname r) (before c r ch l o)
    | none => before c r ch l o

/-- The onions that arrive at host `h` in round `r`, of different submissions or at different layers, differ. -/
def Distinct (c : Config) (r L : Nat) (h : Str) (subs : List Submission) : Prop :=
  subs.Nodup ∧ ∀ x ∈ subs, ∀ y ∈ subs, ∀ l k m m', l < L → k < L → c.topo.mixAt l x.chain = some m → c.topo.mixAt k y.chain = some m' → m.hostname = h →
    m'.hostname = h → before c r x.chain l x.onion = before c r y.chain k y.onion → x = y ∧ l = k

/-- Host `h` has another key in round `r`, under which the onions `a` and `b` contain what the other contained. -/
def Config.exchange (c : Config) (h : Str) (r : Nat) (a b : Bytes) : Config :=
  { c with env := fun h' r' => if h' = h ∧ r' = r then
      { c.env h r with decrypt := fun o => (c.env h r).decrypt (if o = a then b else if o = b then a else o) } else c.env h' r' }

/-- The messages of the submissions `x` and `y` are exchanged: each onion now contains the other one's message. -/
def exchanged (x y : Submission) (subs : List Submission) : List Submission :=
  subs.map fun z => if z = x then { x with msg := y.msg } else if z = y then { y with msg := x.msg } else z

end Resmix.System
