import Verif.Proofs.Stranger
import Verif.Props.Mixer
set_option autoImplicit false
/-
C144: onions of a sender that is not the expected one.
-/
namespace Resmix.Mixer

/-- C144 fails. Let anybody send a mix one onion under another sender name than that of the mix's predecessor, at any point of any execution of the round (AddMessages is open to
everybody, and sender names are not checked). Then, whatever else is sent and however the goroutines are scheduled: the process makes only boundedly many steps of its own before it
is at rest, and whenever it is at rest, GetMixOutputs for that mix has not returned and will not (the call blocks, or the process is dead). -/
theorem C144_stranger_refuted {env : Env} {topo : Topology} {mixes : List LogicalMix} {w : GoMap Str Int} {s0 s : State} {acts : List Action}
    (h0 : newMixers topo mixes w = .ok s0) (hnd : (mixes.map (·.name)).Nodup) (hcpu : 0 < env.nCPU) (htc : 0 < env.taskCap)
    (hx : exec env s0 acts = some s) {mix : LogicalMix} (hmix : mix ∈ mixes) {pk : Str × Str} (hpk : ExpectsOnly topo w mix pk)
    (hstranger : ∃ ms, .call ms ∈ acts ∧ ∃ m ∈ ms, m.logicalReceiver = mix.name ∧ (m.physicalSender, m.logicalSender) ≠ pk ∧ m.messages ≠ []) :
    (∃ N, ∀ steps s', (∀ a ∈ steps, a.internal) → exec env s steps = some s' → steps.length ≤ N) ∧
    ((∀ a, a.internal → step env s a = none) → getMixOutputs s mix.name = none) := by
  obtain ⟨ms, hms, m, hm, hr, hs, hne⟩ := hstranger
  refine ⟨own_bounded env s, fun hrest => ?_⟩
  · cases hc : s.crashed with
    | true => simp [getMixOutputs, hc]
    | false =>
      obtain ⟨ms0, hn0, hadd, hlen, hg0, hrec0, _⟩ := init_ginv h0 hnd hmix hpk
      have hspec := newMixers_spec h0
      have hI := exec_inv (inv_init h0) hx hc
      obtain ⟨hh, hq, hb⟩ := quiet_of_rest hcpu htc hI hc hrest
      obtain ⟨ms1, hn1, hl1, _, hd1, hg1, hr1⟩ := exec_ginv (inv_init h0) hx hc hn0 hadd hspec.2.2.2.2.1 hg0
      have hneg := exec_neg (inv_init h0) hx hc (n := mix.name) (by intro ms' h1 h2; rw [hn0] at h1; cases h1; rw [hadd] at h2; simp at h2)
      have hle : ms1.added.length ≤ ms1.outputs.length := by
        by_contra hgt
        obtain ⟨t, ht, _⟩ := hneg ms1 hn1 (by omega)
        simp [tasks, hh, hq, hb] at ht
      have hdel : ms1.added = delivered acts mix.name := by rw [← hd1]; simp [restFor, hh]
      have hfor := foreign_lt hms hm hr hs hne
      rw [hdel, hl1, hlen] at hle
      exact blocked_of_short h0 hnd hx hmix hpk hle (by omega)

/-- C144, what holds. Whatever sender names the requests carry: if every onion is for a mix of this server and long enough, and no mix is sent more onions than announced, then nothing
crashes, and at rest exactly those mixes with submissions have returned whose predecessor delivered all it announced: a stranger harms only the mixes he sends to. -/
theorem C144_other_mixes_partial {env : Env} {topo : Topology} {mixes : List LogicalMix} {w : GoMap Str Int} {s0 s : State} {acts : List Action}
    (h0 : newMixers topo mixes w = .ok s0) (hnd : (mixes.map (·.name)).Nodup) (hexp : ∀ mix ∈ mixes, ∃ pk, ExpectsOnly topo w mix pk)
    (hcpu : 0 < env.nCPU) (htc : 0 < env.taskCap) (hoc : 0 < env.outCap) (hx : exec env s0 acts = some s) (hg : GoodRequests env mixes w acts)
    (hrest : ∀ a, a.internal → step env s a = none) {mix : LogicalMix} (hmix : mix ∈ mixes) {pk : Str × Str} (hpk : ExpectsOnly topo w mix pk)
    (hpos : 0 < workloadOf w mix.name) :
    s.crashed = false ∧ ((∃ out, getMixOutputs s mix.name = some (.ok out)) ↔ (deliveredFrom acts pk mix.name).length = workloadOf w mix.name) := by
  refine ⟨C12_good_requests_are_safe_partial h0 hx hg, ⟨?_, fun h => ?_⟩⟩
  · rintro ⟨out, hout⟩
    have hle := hg.amounts mix hmix
    have h1 : (deliveredFrom acts pk mix.name).length ≤ (delivered acts mix.name).length := from_le acts pk mix.name
    by_contra hne
    rw [blocked_of_short h0 hnd hx hmix hpk hle (by omega)] at hout
    cases hout
  · obtain ⟨out, h1, _⟩ := (C11_fully_delivered_round_completes_partial h0 hnd hexp hcpu htc hoc hx hg).2 [] s (by simp) rfl hrest mix hmix pk hpk hpos h
    exact ⟨out, h1⟩

/-! ### Concrete executions -/
namespace ExStranger
open Ex

def foreign : Messages := ⟨[o1], b, b, m00.name⟩
def acts : List Action := [.call [foreign, batch [o2]], .addStep, .addStep, .addStep, .addStep, .addStep, .addStep, .addStep, .take, .take, .finish 0, .finish 0]

/-- A stranger's onion comes before the last one of the clients: both announced onions have come, the process is at rest and alive, and the mix has not returned. -/
example : ∃ s, exec env s0 acts = some s ∧ s.crashed = false ∧ (∀ a, a.internal → step env s a = none) ∧ GoodRequests env mixes w acts ∧
    ExpectsOnly topo w m00 (genesisName, genesisName) ∧ (∃ ms, .call ms ∈ acts ∧ ∃ m ∈ ms, m.logicalReceiver = m00.name ∧
      (m.physicalSender, m.logicalSender) ≠ (genesisName, genesisName) ∧ m.messages ≠ []) ∧ getMixOutputs s m00.name = none := by
  refine ⟨_, rfl, rfl, rest_of_idle ⟨rfl, rfl, rfl, rfl, rfl⟩, ⟨?_, ?_, ?_, by decide⟩, .inl ⟨rfl, rfl⟩,
    ⟨[foreign, batch [o2]], by simp [acts], foreign, by simp, rfl, by decide, by decide⟩, rfl⟩
  · intro a ha ms he m hm
    simp only [acts, List.mem_cons, List.not_mem_nil, or_false] at ha
    subst he
    simp at ha
    subst ha
    simp only [List.mem_cons, List.not_mem_nil, or_false] at hm
    rcases hm with rfl | rfl <;> exact ⟨m00, by decide, rfl⟩
  · intro a ha ms he m hm o ho
    simp only [acts, List.mem_cons, List.not_mem_nil, or_false] at ha
    subst he
    simp at ha
    subst ha
    simp only [List.mem_cons, List.not_mem_nil, or_false] at hm
    rcases hm with rfl | rfl <;>
    · simp [foreign, batch] at ho
      subst ho
      decide
  · decide

end ExStranger

end Resmix.Mixer
