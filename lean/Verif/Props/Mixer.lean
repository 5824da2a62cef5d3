import Verif.Proofs.MixerE
import Verif.Proofs.MixerF
set_option autoImplicit false
/-
C08-C13: one round of one mix server (mixer.go), for every schedule of its goroutines.
Executions are lists of scheduler choices (`Action`) from the state made by `newMixers`; what was delivered to a mix is read off
the `call` actions of the execution (`delivered`, Spec/Mixer.lean).
-/
namespace Resmix.Mixer

/-! ### A concrete round used by the examples and counterexamples: two servers, two layers; this server is `a`. -/
namespace Ex
def a : Str := [97]
def b : Str := [98]
def env : Env where
  nCPU := 2
  taskCap := 4
  outCap := 4
  decrypt o := if o.length < 8 then .error .panic else if o.head? = some 9 then .error (.err .unknown "mac") else .ok (o.drop 8)
def topo : Topology := match Topology.createCascade [a, b] 2 with | .ok t => t | .error _ => ⟨[], []⟩
def m00 : LogicalMix := { hostname := a, name := mixNameOf 0 0, serverIndex := 0, layer := 0, predecessors := [genesisName], successors := [mixNameOf 1 1] }
def m10 : LogicalMix := { hostname := a, name := mixNameOf 1 0, serverIndex := 0, layer := 1, predecessors := [mixNameOf 0 1], successors := [genesisName] }
def mixes : List LogicalMix := [m00, m10]
def w : GoMap Str Int := [(mixNameOf 0 0, 2), (mixNameOf 1 1, 2), (mixNameOf 0 1, 0), (mixNameOf 1 0, 0)]
def s0 : State := match newMixers topo mixes w with | .ok s => s | .error _ => ⟨fun _ => none, [], [], none, [], [], false, true, []⟩
def o1 : Bytes := [1,0,0,0,0,0,0,0, 41]
def o2 : Bytes := [2,0,0,0,0,0,0,0, 42]
def batch (os : List Bytes) : Messages := ⟨os, genesisName, genesisName, m00.name⟩
/-- both onions arrive in separate batches; workers finish out of order; shuffle and send -/
def run : List Action := [.call [batch [o1]], .addStep, .addStep, .take, .addStep, .addStep, .call [batch [o2]], .addStep, .addStep,
  .take, .finish 1, .addStep, .addStep, .finish 0, .shuffle 0 [[0,0,0,0],[0,0,0,0],[0,0,0,0],[0,0,0,0]], .send 0]
theorem topo_mem : m00 ∈ topo.layers.flatten ∧ m10 ∈ topo.layers.flatten := by decide
theorem new_ok : newMixers topo mixes w = .ok s0 := by rfl
theorem nodup : (mixes.map (·.name)).Nodup := by decide
theorem run_result : (exec env s0 run).map (fun s => getMixOutputs s m00.name) = some (some (.ok [[41], [42]])) := by rfl
end Ex

/-! ### C08 -/

/-- C08. Whatever the schedule, if GetMixOutputs returns for mix `n` (and peers did not deliver more than announced), then all
announced onions were delivered and the answer is a permutation of their decryptions. -/
theorem C08_outputs_are_the_decryptions {env : Env} {topo : Topology} {mixes : List LogicalMix} {w : GoMap Str Int}
    {s0 s : State} {acts : List Action} {n : Str} {out : List Bytes}
    (h0 : newMixers topo mixes w = .ok s0) (hx : exec env s0 acts = some s)
    (hle : (delivered acts n).length ≤ workloadOf w n)
    (hg : getMixOutputs s n = some (.ok out)) :
    (delivered acts n).length = workloadOf w n ∧
    out.Perm ((delivered acts n).map fun o => match env.decrypt o with | .ok r => r | .error _ => []) := by
  obtain ⟨ms, _, _, _, _, _, _, _, hl, hp⟩ := outputs_of_get h0 hx hle hg
  exact ⟨hl, hp⟩

example : ∃ s, exec Ex.env Ex.s0 Ex.run = some s ∧ (delivered Ex.run Ex.m00.name) = [Ex.o1, Ex.o2] ∧
    workloadOf Ex.w Ex.m00.name = 2 ∧ getMixOutputs s Ex.m00.name = some (.ok [[41], [42]]) := ⟨_, rfl, by decide, by decide, by rfl⟩

/-! ### C09 -/

/-- C09. The answer for a known mix is complete (every announced onion was decrypted, the shuffle ran exactly once) and final:
as long as peers do not over-deliver and the process lives, every later call returns the same list. -/
theorem C09_answer_is_complete_and_final {env : Env} {topo : Topology} {mixes : List LogicalMix} {w : GoMap Str Int}
    {s0 s : State} {acts : List Action} {n : Str} {out : List Bytes}
    (h0 : newMixers topo mixes w = .ok s0) (hx : exec env s0 acts = some s)
    (hle : (delivered acts n).length ≤ workloadOf w n) (hg : getMixOutputs s n = some (.ok out)) :
    out.length = workloadOf w n ∧ (delivered acts n).length = workloadOf w n ∧
    (∃ ms, s.states n = some ms ∧ ms.shuffles = 1) ∧
    ∀ later s', exec env s later = some s' → s'.crashed = false →
      (delivered (acts ++ later) n).length ≤ workloadOf w n → getMixOutputs s' n = some (.ok out) := by
  obtain ⟨ms, hn, ho, hwg, hsh, hout, hlen, hadd, hl, hp⟩ := outputs_of_get h0 hx hle hg
  refine ⟨by rw [hp.length_eq]; simpa using hl, hl, ⟨ms, hn, hsh⟩, ?_⟩
  intro later s' hx' hc' hle'
  have hc : s.crashed = false := by
    cases hc : s.crashed with
    | false => rfl
    | true => simp [getMixOutputs, hc] at hg
  have hI := exec_inv (inv_init h0) hx hc
  obtain ⟨ms0, _, _, _, _, hd⟩ := exec_some hx hc (init_added h0) (newMixers_spec h0).2.2.2.2.1 hn
  obtain ⟨ms', hn', e1, e2, e3, _, _⟩ := getMixOutputs_final hx' hc' hI hn ho (by
    rw [hd, ← delivered_append, hlen]; exact hle')
  have hsw := (hI.mix n ms hn).sw.1
  rw [ho] at hsw
  simp only [if_true] at hsw
  simp [getMixOutputs, hc', hn', getOutputs, e2, hwg, e3, hsw, e1, hout]

/-- C09, unknown names: NotFound exactly for the names that are not mixes of this server. -/
theorem C09_notFound_iff_unknown {env : Env} {topo : Topology} {mixes : List LogicalMix} {w : GoMap Str Int}
    {s0 s : State} {acts : List Action} {n : Str}
    (h0 : newMixers topo mixes w = .ok s0) (hx : exec env s0 acts = some s) (hc : s.crashed = false) :
    (∃ msg, getMixOutputs s n = some (.error (.err .notFound msg))) ↔ ∀ mix ∈ mixes, mix.name ≠ n := by
  constructor
  · rintro ⟨msg, h⟩ mix hmix rfl
    obtain ⟨ms0, hn0⟩ := Option.isSome_iff_exists.1 ((newMixers_spec h0).2.1 mix hmix)
    obtain ⟨ms, hn, _⟩ := exec_mix hx hc hn0 (init_added h0 _ _ hn0) (newMixers_spec h0).2.2.2.2.1
    simp only [getMixOutputs, hc, hn] at h
    cases hgo : getOutputs ms <;> simp [hgo] at h
  · intro h
    have hn0 : s0.states n = none := by
      cases hn0 : s0.states n with
      | none => rfl
      | some ms => obtain ⟨mix, hmix, hname, _⟩ := (newMixers_spec h0).1 n ms hn0; exact absurd hname (h mix hmix)
    exact ⟨_, by simp only [getMixOutputs, hc, exec_no_mix hx hn0]; rfl⟩

example : ∃ s s', exec Ex.env Ex.s0 Ex.run = some s ∧ exec Ex.env s [.recv, .call [], .addStep] = some s' ∧
    getMixOutputs s' Ex.m00.name = some (.ok [[41], [42]]) ∧
    getMixOutputs s' Ex.b = some (.error (.err .notFound "mix not found")) := ⟨_, _, rfl, rfl, by rfl, by rfl⟩

/-! ### C10 -/

/-- C10 does not hold as stated: an additional batch without onions, sent to a mix that already completed, makes the mix forward
its whole batch a second time (mixer.go:205-207 starts another shuffleAndSend; only the shuffle is guarded by Once). -/
theorem C10_forwarded_twice_refuted : ∃ (env : Env) (topo : Topology) (mixes : List LogicalMix) (w : GoMap Str Int)
    (s0 s : State) (acts : List Action) (mix : LogicalMix) (out : List Bytes),
    newMixers topo mixes w = .ok s0 ∧ exec env s0 acts = some s ∧ GoodRequests env mixes w acts ∧
    mix ∈ mixes ∧ mix.layer + 1 < topo.layers.length ∧ (delivered acts mix.name).length = workloadOf w mix.name ∧
    out ≠ [] ∧ s.sent = [⟨out, mix.name⟩, ⟨out, mix.name⟩] := by
  refine ⟨Ex.env, Ex.topo, Ex.mixes, Ex.w, Ex.s0, _, Ex.run ++ [.call [Ex.batch []], .addStep, .addStep, .shuffle 0 [], .send 0],
    Ex.m00, [[41], [42]], Ex.new_ok, rfl, ⟨?_, ?_, by decide, by decide⟩, by decide, by decide, by decide, by decide, rfl⟩
  · intro a ha ms hms m hm
    subst hms
    refine ⟨Ex.m00, by decide, ?_⟩
    simp [Ex.run] at ha
    rcases ha with rfl | rfl | rfl <;> (simp at hm; subst hm; rfl)
  · intro a ha ms hms m hm o ho
    subst hms
    simp [Ex.run] at ha
    rcases ha with rfl | rfl | rfl <;> (simp at hm; subst hm; simp [Ex.batch] at ho; try (subst ho; decide))

/-- C10, the part that holds. For every schedule: the shuffle of a mix runs at most once (and has run once whenever the outputs
are available); a last-layer mix never forwards; and if every batch sent to the mix carries at least one onion and peers do not
over-deliver, an inner mix forwards at most once, what it forwards is exactly what GetMixOutputs returns, and when all announced
onions came from the expected sender and the process has come to rest it forwarded exactly once.
Missing: batches without onions (see C10_forwarded_twice_refuted). -/
theorem C10_forwards_once_partial {env : Env} {topo : Topology} {mixes : List LogicalMix} {w : GoMap Str Int}
    {s0 s : State} {acts : List Action} (h0 : newMixers topo mixes w = .ok s0) (hnd : (mixes.map (·.name)).Nodup)
    (hx : exec env s0 acts = some s) (hc : s.crashed = false) {mix : LogicalMix} (hmix : mix ∈ mixes)
    {pk : Str × Str} (hpk : ExpectsOnly topo w mix pk) :
    (∃ ms, s.states mix.name = some ms ∧ ms.shuffles ≤ 1) ∧
    (mix.layer + 1 = topo.layers.length → ∀ b ∈ s.sent, b.logicalSender ≠ mix.name) ∧
    (mix.layer + 1 ≠ topo.layers.length → NoEmptyBatch acts mix.name → 0 < workloadOf w mix.name →
      (delivered acts mix.name).length ≤ workloadOf w mix.name →
      (s.sent.filter fun b => b.logicalSender = mix.name).length ≤ 1 ∧
      (∀ b ∈ s.sent, b.logicalSender = mix.name → getMixOutputs s mix.name = some (.ok b.onions)) ∧
      (Idle s → (deliveredFrom acts pk mix.name).length = workloadOf w mix.name →
        (s.sent.filter fun b => b.logicalSender = mix.name).length = 1)) := by
  have hspec := newMixers_spec h0
  have hh := hspec.2.2.2.2.1
  obtain ⟨ms0, hn0, hadd, hlen, g0, hr0, hla⟩ := init_ginv h0 hnd hmix hpk
  obtain ⟨ms, hn, hl, hla', hd, hg, hr⟩ := exec_ginv (inv_init h0) hx hc hn0 hadd hh g0
  have hI := exec_inv (inv_init h0) hx hc
  have hM := hI.mix _ ms hn
  refine ⟨⟨ms, hn, by rw [hM.sw.2]; split <;> omega⟩, ?_, ?_⟩
  · intro hlast b hb hbn
    have := (hg.sent b hb hbn).2
    rw [hla', hla, hlast] at this
    simp at this
  · intro hnl hne hpos hle
    have hlastF : ms0.isLastLayer = false := by rw [hla]; simpa using hnl
    obtain ⟨ms', hn', hsp⟩ := exec_spawned (inv_init h0) hx hc hn0 hadd hh g0 hr0 hspec.2.2.2.2.2.1
      hspec.2.2.2.2.2.2.2.2.2 hlastF (by omega) hne (by omega)
    rw [hn] at hn'; cases hn'
    have hdl := congrArg List.length hd
    simp only [List.length_append] at hdl
    refine ⟨?_, ?_, ?_⟩
    · have : spawned s mix.name ≤ 1 := by rw [hsp]; split <;> omega
      unfold spawned at this; omega
    · intro b hb hbn
      have ho := (hg.sent b hb hbn).1
      rw [hg.sentEq (by omega) b hb hbn]
      have hb' := hM.body (by omega)
      obtain ⟨hP, hperm⟩ := hb'.fin ho
      have hcnt := hb'.cnt
      have hpl := hperm.length_eq
      have hsw := hM.sw.1
      rw [ho] at hsw
      rw [hP] at hcnt
      simp at hcnt hpl hsw
      have hwg : ms.wg = 0 := by omega
      simp [getMixOutputs, hc, hn, getOutputs, hwg, hsw]
    · intro hidle hfull
      have hrest : restFrom s pk mix.name = [] := by simp [restFrom, hidle.1]
      rw [hrest, hr0, hfull] at hr
      simp at hr
      rw [if_pos ⟨by omega, by rintro ⟨_, _, hcur⟩; rw [hidle.1] at hcur; cases hcur⟩] at hsp
      simpa [spawned, hidle.2.2.2.1] using hsp

example : ∃ s, exec Ex.env Ex.s0 (Ex.run ++ [.recv]) = some s ∧ Idle s ∧ s.crashed = false ∧
    ExpectsOnly Ex.topo Ex.w Ex.m00 (genesisName, genesisName) ∧
    (deliveredFrom (Ex.run ++ [.recv]) (genesisName, genesisName) Ex.m00.name).length = workloadOf Ex.w Ex.m00.name ∧
    s.sent = [⟨[[41], [42]], Ex.m00.name⟩] :=
  ⟨_, rfl, ⟨rfl, rfl, rfl, rfl, rfl⟩, rfl, .inl ⟨rfl, rfl⟩, by decide, rfl⟩

/-- C10 for an inner mix with any number of predecessors, under every schedule: if no batch sent to it is empty and peers do not
over-deliver, then it forwards at most once; it forwards only after every predecessor delivered all it announced; and once every
predecessor did and the process has come to rest, it forwarded exactly once.
Missing: batches without onions (see C10_forwarded_twice_refuted). -/
theorem C10_many_predecessors_partial {env : Env} {topo : Topology} {mixes : List LogicalMix} {w : GoMap Str Int}
    {s0 s : State} {acts : List Action} (h0 : newMixers topo mixes w = .ok s0) (hnd : (mixes.map (·.name)).Nodup)
    (hx : exec env s0 acts = some s) (hc : s.crashed = false) {mix : LogicalMix} (hmix : mix ∈ mixes)
    {senders : List (Str × Str)} (hpk : ExpectsAll topo w mix senders) (hnl : mix.layer + 1 ≠ topo.layers.length)
    (hne : NoEmptyBatch acts mix.name) (hpos : 0 < workloadOf w mix.name) (hle : (delivered acts mix.name).length ≤ workloadOf w mix.name) :
    (s.sent.filter fun b => b.logicalSender = mix.name).length ≤ 1 ∧
    ((∃ b ∈ s.sent, b.logicalSender = mix.name) → ∀ pk ∈ senders, workloadOf w pk.2 ≤ (deliveredFrom acts pk mix.name).length) ∧
    (Idle s → (∀ pk ∈ senders, ((deliveredFrom acts pk mix.name).length : Int) = (w.lookup pk.2).getD 0) →
      (s.sent.filter fun b => b.logicalSender = mix.name).length = 1) := by
  obtain ⟨h1, h2, _, _, hh, hsh, _, _, _, hse⟩ := newMixers_spec h0
  obtain ⟨ms0, hn⟩ := Option.isSome_iff_exists.1 (h2 mix hmix)
  obtain ⟨mix', hmem', hname, hm⟩ := h1 _ _ hn
  have : mix' = mix := List.inj_on_of_nodup_map hnd hmem' hmix hname
  subst this
  obtain ⟨hw, hlen, hadd, honce, hsw, hwg, htw, hpre, hrec, hla, hshf⟩ := newMixState_spec hm
  rw [setPredecessors_all hpk] at hpre
  injection hpre with hpre
  have hsnd : senders.Nodup := List.Nodup.of_map (·.2) (by rw [hpk.names]; exact hpk.nodup)
  have hkeys : ms0.predecessors.map (·.1) = senders.reverse := by rw [← hpre, ← List.map_reverse, List.map_map]; simp [Function.comp_def]
  have hsum : (ms0.predecessors.map (·.2)).sum = (ms0.outputs.length : Int) := by
    rw [← hpre, ← List.map_reverse, List.map_map, List.map_reverse, List.sum_reverse, hlen]
    have ht := hpk.total
    rw [← hpk.names, List.map_map] at ht
    simp only [Function.comp_def] at ht ⊢
    rw [ht]; omega
  have hr0 : ∀ k, recvOf ms0 k = 0 := by
    intro k
    unfold recvOf
    rw [hrec]
    generalize ms0.predecessors = l
    induction l with
    | nil => rfl
    | cons e l ih => simp only [List.map_cons, GoMap.lookup]; split <;> [rfl; exact ih]
  have hW : ms0.outputs.length = workloadOf w mix'.name := hlen
  obtain ⟨ms, hs, hl, hp, hlaf, hd, hrs, hrf, hsp⟩ := exec_spawned_all hx hc hn hadd hh (by rw [hkeys]; exact List.nodup_reverse.2 hsnd) hr0 hsum hsh hse
    (by rw [hla]; simpa using hnl) (by omega) hne (by omega)
  have hdone : isDone ms = true → ∀ pk ∈ senders, recvOf ms pk = (w.lookup pk.2).getD 0 := by
    intro h pk hpk'
    have := List.all_eq_true.1 h (pk, (w.lookup pk.2).getD 0) (by
      rw [hp, ← hpre, List.mem_reverse]
      exact List.mem_map_of_mem (f := fun pk : Str × Str => (pk, (w.lookup pk.2).getD 0)) hpk')
    simp only [decide_eq_true_eq] at this
    exact this.symm
  refine ⟨?_, ?_, ?_⟩
  · have : spawned s mix'.name ≤ 1 := by rw [hsp]; split <;> omega
    unfold spawned at this; omega
  · rintro ⟨b, hb, hbn⟩ pk hpk'
    have hpos1 : 0 < (s.sent.filter fun b => b.logicalSender = mix'.name).length :=
      List.length_pos_iff.2 (List.ne_nil_of_mem (List.mem_filter.2 ⟨hb, by simpa using hbn⟩))
    have hd' : isDone ms = true := by
      by_contra hcon
      rw [if_neg (fun h => hcon h.1)] at hsp
      unfold spawned at hsp; omega
    have h3 := hdone hd' pk hpk'
    have h4 := hrf pk
    unfold workloadOf
    omega
  · intro hidle hfull
    have hd' : isDone ms = true := by
      unfold isDone
      rw [List.all_eq_true]
      intro e he
      rw [hp, ← hpre, List.mem_reverse] at he
      obtain ⟨pk, hpk', rfl⟩ := List.mem_map.1 he
      have h4 := hrf pk
      have hrest : restFrom s pk mix'.name = [] := by simp [restFrom, hidle.1]
      rw [hrest, hfull pk hpk'] at h4
      simp only [decide_eq_true_eq]
      have h5 : recvOf ms pk = (w.lookup pk.2).getD 0 := by simpa using h4
      exact h5.symm
    rw [if_pos ⟨hd', by rintro ⟨_, _, hcur⟩; rw [hidle.1] at hcur; cases hcur⟩] at hsp
    simpa [spawned, hidle.2.2.2.1] using hsp

/-! A mix with two predecessors on different hosts (what a recovered topology would look like), and a run of it. -/
namespace Ex2
def p1 : LogicalMix := { hostname := [1], name := [11], serverIndex := 0, layer := 0, predecessors := [genesisName], successors := [[13]] }
def p2 : LogicalMix := { hostname := [2], name := [12], serverIndex := 1, layer := 0, predecessors := [genesisName], successors := [[13]] }
def mix : LogicalMix := { hostname := [3], name := [13], serverIndex := 2, layer := 1, predecessors := [[11], [12]], successors := [[14]] }
def topo : Topology := { layers := [[p1, p2], [mix], []], mixes := [([11], (0, 0)), ([12], (0, 1)), ([13], (1, 0))] }
def w : GoMap Str Int := [([11], 1), ([12], 1), ([13], 2)]
def run : List Action := [.call [⟨[Ex.o1], [1], [11], [13]⟩], .addStep, .addStep, .take, .addStep, .addStep,
  .call [⟨[Ex.o2], [2], [12], [13]⟩], .addStep, .addStep, .take, .finish 1, .addStep, .addStep, .finish 0,
  .shuffle 0 [[0,0,0,0],[0,0,0,0],[0,0,0,0],[0,0,0,0]], .send 0, .recv]
end Ex2

example : ∃ s0 s, newMixers Ex2.topo [Ex2.mix] Ex2.w = .ok s0 ∧ exec Ex.env s0 Ex2.run = some s ∧ s.crashed = false ∧ Idle s ∧
    ExpectsAll Ex2.topo Ex2.w Ex2.mix [([1], [11]), ([2], [12])] ∧ Ex2.mix.layer + 1 ≠ Ex2.topo.layers.length ∧
    s.sent.map (·.logicalSender) = [Ex2.mix.name] :=
  ⟨_, _, rfl, rfl, rfl, ⟨rfl, rfl, rfl, rfl, rfl⟩, ⟨rfl, by decide, by decide, by decide, by decide⟩, by decide, rfl⟩

/-! ### C11 -/

/-- C11 does not hold for a mix whose announced workload is zero: as long as nobody sends it a batch (correct peers have nothing
to send), GetMixOutputs for it blocks in every reachable state of every schedule. -/
theorem C11_empty_mix_blocks_refuted {env : Env} {topo : Topology} {mixes : List LogicalMix} {w : GoMap Str Int}
    {s0 s : State} {acts : List Action} (h0 : newMixers topo mixes w = .ok s0) (hx : exec env s0 acts = some s)
    {mix : LogicalMix} (hmix : mix ∈ mixes) (_hzero : workloadOf w mix.name = 0)
    (hnone : ∀ a ∈ acts, ∀ ms, a = .call ms → ∀ m ∈ ms, m.logicalReceiver ≠ mix.name) :
    getMixOutputs s mix.name = none := by
  have hspec := newMixers_spec h0
  cases hc : s.crashed with
  | true => simp [getMixOutputs, hc]
  | false =>
    obtain ⟨ms0, hn0⟩ := Option.isSome_iff_exists.1 (hspec.2.1 mix hmix)
    obtain ⟨mx, _, _, hm⟩ := hspec.1 _ _ hn0
    obtain ⟨_, _, ms, hn, ho⟩ := untouched hx hc hspec.2.2.2.2.1 hspec.2.2.2.2.2.1 hnone hn0 (newMixState_spec hm).2.2.2.1
    have := ((exec_inv (inv_init h0) hx hc).mix _ ms hn).sw.1
    rw [ho] at this
    simp [getMixOutputs, hc, hn, getOutputs, this]

example : Ex.m10 ∈ Ex.mixes ∧ workloadOf Ex.w Ex.m10.name = 0 ∧
    ∃ s, exec Ex.env Ex.s0 Ex.run = some s ∧ getMixOutputs s Ex.m10.name = none := ⟨by decide, by decide, _, rfl, rfl⟩

/-- C11 for positive workloads. From every state reached by good requests: (1) the process can take only finitely many steps on
its own (a bound that depends on the state only), so every schedule of them comes to rest; (2) whenever it has come to rest, every
mix that was sent all its announced onions by the expected sender has its outputs available.
Missing: mixes with workload zero (C11_empty_mix_blocks_refuted). -/
theorem C11_fully_delivered_round_completes_partial {env : Env} {topo : Topology} {mixes : List LogicalMix}
    {w : GoMap Str Int} {s0 s : State} {acts : List Action}
    (h0 : newMixers topo mixes w = .ok s0) (hnd : (mixes.map (·.name)).Nodup)
    (hexp : ∀ mix ∈ mixes, ∃ pk, ExpectsOnly topo w mix pk)
    (hcpu : 0 < env.nCPU) (htc : 0 < env.taskCap) (hoc : 0 < env.outCap)
    (hx : exec env s0 acts = some s) (hg : GoodRequests env mixes w acts) :
    (∃ N, ∀ steps s', (∀ a ∈ steps, a.internal) → exec env s steps = some s' → steps.length ≤ N) ∧
    (∀ steps s', (∀ a ∈ steps, a.internal) → exec env s steps = some s' → (∀ a, a.internal → step env s' a = none) →
      ∀ mix ∈ mixes, ∀ pk, ExpectsOnly topo w mix pk → 0 < workloadOf w mix.name →
        (deliveredFrom acts pk mix.name).length = workloadOf w mix.name →
        ∃ out, getMixOutputs s' mix.name = some (.ok out) ∧ out.Perm ((delivered acts mix.name).map (resultOf env))) := by
  have hspec := newMixers_spec h0
  have hxx : ∀ steps s', exec env s steps = some s' → exec env s0 (acts ++ steps) = some s' := by
    intro steps s' h; rw [exec_append, hx]; exact h
  constructor
  · refine ⟨weight s, ?_⟩
    intro steps s' hi hs
    have hc' := exec_safe (inv_init h0) hspec.2.2.2.2.1 (init_added h0) hspec.2.2.2.2.2.2.2.1 hspec.2.2.2.2.2.2.2.2.1
      (hxx _ _ hs) (wellFormed_of_good h0 (hg.append_internal hi))
    have := exec_weight hs hc' hi
    omega
  · intro steps s' hi hs hstuck mix hmix pk hpk hpos hfull
    obtain ⟨hc, hidle⟩ := idle_of_stuck h0 hnd hexp hcpu htc hoc (hxx _ _ hs) (hg.append_internal hi) hstuck
    have hle := (hg.append_internal hi).amounts mix hmix
    obtain ⟨out, hout⟩ := idle_done h0 hnd hmix hpk (hxx _ _ hs) hc hidle hle hpos (by
      rw [deliveredFrom, List.flatMap_append, List.length_append]
      have e := deliveredFrom_internal hi pk mix.name
      rw [deliveredFrom] at e hfull
      rw [e, hfull]; rfl)
    refine ⟨out, hout, ?_⟩
    have := (outputs_of_get h0 (hxx _ _ hs) hle hout).choose_spec.2.2.2.2.2.2.2.2
    rw [delivered_append, delivered_internal hi, List.append_nil] at this
    exact this

example : GoodRequests Ex.env Ex.mixes Ex.w (Ex.run ++ [.recv]) ∧ (∀ mix ∈ Ex.mixes, ∃ pk, ExpectsOnly Ex.topo Ex.w mix pk) ∧
    0 < Ex.env.nCPU ∧ 0 < Ex.env.taskCap ∧ 0 < Ex.env.outCap := by
  refine ⟨⟨?_, ?_, by decide, by decide⟩, ?_, by decide, by decide, by decide⟩
  · intro a ha ms hms m hm
    subst hms
    refine ⟨Ex.m00, by decide, ?_⟩
    simp [Ex.run] at ha
    rcases ha with rfl | rfl <;> (simp at hm; subst hm; rfl)
  · intro a ha ms hms m hm o ho
    subst hms
    simp [Ex.run] at ha
    rcases ha with rfl | rfl <;> (simp at hm; subst hm; simp [Ex.batch] at ho; (subst ho; decide))
  · intro mix hm
    rcases List.mem_cons.1 hm with rfl | hm
    · exact ⟨_, .inl ⟨rfl, rfl⟩⟩
    · rw [List.mem_singleton] at hm
      subst hm
      exact ⟨(Ex.b, mixNameOf 0 1), .inr ⟨mixNameOf 0 1, _, rfl, by decide, rfl, rfl, by decide⟩⟩

/-! ### C12 -/

/-- C12 does not hold: each of the following single requests to a fresh round kills the process (the schedule is the obvious one):
a batch for a mix that does not run here, a batch with more onions than announced, an onion shorter than its routing trailer, a
batch that arrives after the round object was closed. -/
theorem C12_requests_crash_refuted : ∃ (env : Env) (topo : Topology) (mixes : List LogicalMix) (w : GoMap Str Int) (s0 : State),
    newMixers topo mixes w = .ok s0 ∧
    (∃ s, exec env s0 [.call [⟨[], Ex.b, Ex.b, Ex.b⟩], .addStep] = some s ∧ s.crashed = true) ∧
    (∃ s, exec env s0 [.call [Ex.batch [Ex.o1, Ex.o1, Ex.o1]], .addStep, .addStep, .addStep, .addStep, .take, .finish 0, .take, .finish 0,
      .take, .finish 0] = some s ∧ s.crashed = true) ∧
    (∃ s, exec env s0 [.call [Ex.batch [[1, 2, 3]]], .addStep, .addStep, .take, .finish 0] = some s ∧ s.crashed = true) ∧
    (∃ s, exec env s0 [.call [Ex.batch [Ex.o1]], .addStep, .close, .addStep] = some s ∧ s.crashed = true) :=
  ⟨Ex.env, Ex.topo, Ex.mixes, Ex.w, Ex.s0, Ex.new_ok, ⟨_, rfl, rfl⟩, ⟨_, rfl, rfl⟩, ⟨_, rfl, rfl⟩, ⟨_, rfl, rfl⟩⟩

/-- C12, the part that holds: requests with known receivers, parseable onions and no more onions than announced never crash the
server, whatever the schedule, the batch sizes and the senders. Missing: the requests of C12_requests_crash_refuted. -/
theorem C12_good_requests_are_safe_partial {env : Env} {topo : Topology} {mixes : List LogicalMix} {w : GoMap Str Int}
    {s0 s : State} {acts : List Action} (h0 : newMixers topo mixes w = .ok s0)
    (hx : exec env s0 acts = some s) (hg : GoodRequests env mixes w acts) : s.crashed = false := by
  have hspec := newMixers_spec h0
  exact exec_safe (inv_init h0) hspec.2.2.2.2.1 (init_added h0) hspec.2.2.2.2.2.2.2.1 hspec.2.2.2.2.2.2.2.2.1 hx
    (wellFormed_of_good h0 hg)

/-! ### C13 -/

/-- C13. Two executions of the round (any schedules, any batching, any order, any senders) that delivered the same onions to mix
`n` return the same multiset of outputs for it. -/
theorem C13_batching_is_irrelevant {env env' : Env} {topo : Topology} {mixes : List LogicalMix} {w : GoMap Str Int}
    {s0 s s' : State} {acts acts' : List Action} {n : Str} {out out' : List Bytes}
    (henv : env.decrypt = env'.decrypt)
    (h0 : newMixers topo mixes w = .ok s0) (hx : exec env s0 acts = some s) (hx' : exec env' s0 acts' = some s')
    (hle : (delivered acts n).length ≤ workloadOf w n)
    (hsame : (delivered acts n).Perm (delivered acts' n))
    (hg : getMixOutputs s n = some (.ok out)) (hg' : getMixOutputs s' n = some (.ok out')) : out.Perm out' := by
  have h1 := (C08_outputs_are_the_decryptions h0 hx hle hg).2
  have h2 := (C08_outputs_are_the_decryptions h0 hx' (by rw [← hsame.length_eq]; exact hle) hg').2
  rw [← henv] at h2
  exact h1.trans ((hsame.map _).trans h2.symm)

example : ∃ s acts', exec Ex.env Ex.s0 acts' = some s ∧ (delivered Ex.run Ex.m00.name).Perm (delivered acts' Ex.m00.name) ∧
    getMixOutputs s Ex.m00.name = some (.ok [[42], [41]]) :=
  ⟨_, [.call [Ex.batch [Ex.o2, Ex.o1]], .addStep, .addStep, .addStep, .take, .take, .finish 0, .addStep, .addStep, .finish 0,
    .shuffle 0 [[0,0,0,0],[0,0,0,0],[0,0,0,0],[0,0,0,0]]], rfl, by decide, rfl⟩

end Resmix.Mixer
