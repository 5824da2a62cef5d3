import Verif.Props.Sender
set_option autoImplicit false
/-
C70, the part that holds: up to the forwarding of the batch a bad onion harms only itself.
-/
namespace Resmix.Mixer

/-- The plaintexts of the onions of a list that decrypt, in order. -/
def goodOutputs (env : Env) (os : List Bytes) : List Bytes := os.filterMap fun o => (env.decrypt o).toOption

/-- The number of onions that do not decrypt. -/
def badOnions (env : Env) (os : List Bytes) : Nat := (os.filter fun o => (env.decrypt o).toOption.isNone).length

theorem outputs_split (env : Env) (os : List Bytes) :
    (os.map fun o => match env.decrypt o with | .ok r => r | .error _ => []).Perm (goodOutputs env os ++ List.replicate (badOnions env os) []) := by
  induction os with
  | nil => simp [goodOutputs, badOnions]
  | cons o os ih =>
    cases h : env.decrypt o with
    | ok r => simpa [goodOutputs, badOnions, h, Except.toOption] using ih
    | error e =>
      simp only [List.map_cons, h, goodOutputs, badOnions, Except.toOption, List.filterMap_cons, List.filter_cons, Option.isNone_none, if_true, List.length_cons,
        List.replicate_succ] at ih ⊢
      exact (ih.cons _).trans List.perm_middle.symm

/-- C70, what holds: requests with bad onions (any bytes of the right framing, as many as announced) never crash the mixer, in any schedule; the answer of GetMixOutputs for
any mix consists of the plaintexts of the onions that decrypt, as if the bad ones were not there, plus one empty entry per bad onion; and a mix of the last layer forwards
nothing, so that there the bad onion harms only itself. Missing: the other layers, where the empty entry is forwarded (C70_bad_onion_crashes_refuted). -/
theorem C70_last_layer_partial {env : Env} {topo : Topology} {mixes : List LogicalMix} {w : GoMap Str Int}
    {s0 s : State} {acts : List Action} (h0 : newMixers topo mixes w = .ok s0) (hnd : (mixes.map (·.name)).Nodup)
    (hx : exec env s0 acts = some s) (hg : GoodRequests env mixes w acts) {mix : LogicalMix} (hmix : mix ∈ mixes)
    {pk : Str × Str} (hpk : ExpectsOnly topo w mix pk) :
    s.crashed = false ∧
    (∀ out, getMixOutputs s mix.name = some (.ok out) →
      out.Perm (goodOutputs env (delivered acts mix.name) ++ List.replicate (badOnions env (delivered acts mix.name)) [])) ∧
    (mix.layer + 1 = topo.layers.length → ∀ b ∈ s.sent, b.logicalSender ≠ mix.name) := by
  have hc := C12_good_requests_are_safe_partial h0 hx hg
  refine ⟨hc, ?_, (C10_forwards_once_partial h0 hnd hx hc hmix hpk).2.1⟩
  intro out ho
  exact (C08_outputs_are_the_decryptions h0 hx (hg.amounts mix hmix) ho).2.trans (outputs_split env _)

namespace Ex
def topo1 : Topology := match Topology.createCascade [a, b] 1 with | .ok t => t | .error _ => ⟨[], []⟩
def m1 : LogicalMix := { hostname := a, name := mixNameOf 0 0, serverIndex := 0, layer := 0, predecessors := [genesisName], successors := [genesisName] }
def w1 : GoMap Str Int := [(mixNameOf 0 0, 2), (mixNameOf 0 1, 0)]
def s1 : State := match newMixers topo1 [m1] w1 with | .ok s => s | .error _ => ⟨fun _ => none, [], [], none, [], [], false, true, []⟩
/-- A good and a bad onion for the only (hence last) layer. -/
def run1 : List Action := [.call [batch [o1, [9, 0, 0, 0, 0, 0, 0, 0]]], .addStep, .addStep, .addStep, .take, .take, .finish 1, .addStep, .addStep, .finish 0,
  .shuffle 0 [[0,0,0,0],[0,0,0,0],[0,0,0,0],[0,0,0,0]]]
end Ex

open Ex in
/-- The hypotheses are met by a round with one good and one bad onion; the good one comes out, with an empty entry. -/
example : m1 ∈ topo1.layers.flatten ∧ newMixers topo1 [m1] w1 = .ok s1 ∧ GoodRequests env [m1] w1 run1 ∧ ExpectsOnly topo1 w1 m1 (genesisName, genesisName) ∧
    m1.layer + 1 = topo1.layers.length ∧ badOnions env (delivered run1 m1.name) = 1 ∧
    ∃ s, exec env s1 run1 = some s ∧ getMixOutputs s m1.name = some (.ok [[41], []]) := by
  refine ⟨by decide, rfl, ⟨?_, ?_, by decide, by decide⟩, .inl ⟨rfl, rfl⟩, by decide, by decide, _, rfl, rfl⟩
  · intro a ha ms hms m hm
    simp only [run1, List.mem_cons, List.not_mem_nil, or_false] at ha
    rcases ha with rfl | rfl | rfl | rfl | rfl | rfl | rfl | rfl | rfl | rfl | rfl <;> cases hms
    simp only [List.mem_singleton] at hm; subst hm
    exact ⟨_, List.mem_singleton.2 rfl, rfl⟩
  · intro a ha ms hms m hm o ho
    simp only [run1, List.mem_cons, List.not_mem_nil, or_false] at ha
    rcases ha with rfl | rfl | rfl | rfl | rfl | rfl | rfl | rfl | rfl | rfl | rfl <;> cases hms
    simp only [List.mem_singleton] at hm; subst hm
    simp only [batch, List.mem_cons, List.not_mem_nil, or_false] at ho
    rcases ho with rfl | rfl <;> (intro h; cases h)

end Resmix.Mixer
