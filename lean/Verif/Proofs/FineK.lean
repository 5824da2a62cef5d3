import Verif.Proofs.FineJ
import Verif.Proofs.Shuffle
set_option autoImplicit false
/- What a state at rest of the fine-grained mixer looks like (C123). -/
namespace Resmix.MixerFine
open Resmix.Mixer (Messages Task Env MixState AddOp Shuf MixOutput Action mkTasks newMixers)
open Resmix.Race

theorem rest_busy {env : Env} {f : State} (ht : TInv f) (hr : Rest env f) : f.busy = [] := by
  by_contra hne
  obtain ⟨⟨w, t, b⟩, l, hb⟩ := List.exists_cons_of_ne_nil hne
  have h0 : f.busy[0]? = some (w, t, b) := by rw [hb]; rfl
  obtain ⟨M, hM, -⟩ := ht.low t (busy_mem h0)
  cases b with
  | false =>
    by_cases hp : env.decrypt t.input = .error .panic
    · exact hr.2 _ _ (.work (.panic h0 hp))
    · by_cases hi : 0 ≤ t.idx ∧ t.idx < M.outputs.length
      · exact hr.2 _ _ (.work (.write h0 hp hM hi))
      · exact hr.2 _ _ (.work (.range h0 hM hi))
  | true =>
    by_cases hg : M.wg - 1 < 0
    · exact hr.2 _ _ (.work (.negative h0 hM hg))
    · exact hr.2 _ _ (.work (.done h0 hM hg))

theorem rest_queue {env : Env} {f : State} (ht : TInv f) (hr : Rest env f) (hcpu : 0 < env.nCPU) : f.queue = [] := by
  by_contra hne
  obtain ⟨t, l, hb⟩ := List.exists_cons_of_ne_nil hne
  exact hr.2 _ _ (.work (.take 0 hb hcpu (by rw [rest_busy ht hr]; intro e he; cases he)))

theorem rest_holder {env : Env} {f : State} (ht : TInv f) (hr : Rest env f) (hcpu : 0 < env.nCPU) (htc : 0 < env.taskCap) : f.holder = none := by
  by_contra hne
  obtain ⟨⟨g, pc, rest⟩, hh⟩ := Option.ne_none_iff_exists'.1 hne
  have hold := ht.hold g pc rest hh
  have go : ∀ evs s', AddStep env f evs s' → False := fun evs s' h => hr.2 _ _ (.add h hne)
  cases pc with
  | next =>
    cases rest with
    | nil => exact go _ _ (.unlock hh)
    | cons m rest =>
      by_cases hn : f.mixes m.logicalReceiver = none
      · exact go _ _ (.unknown hh hn)
      · exact go _ _ (.batch hh hn)
  | idx m os acc =>
    obtain ⟨⟨M, hM⟩, -⟩ := hold
    cases os with
    | nil => exact go _ _ (.count hh hM)
    | cons o os => exact go _ _ (.index hh hM)
  | load m o os acc i =>
    obtain ⟨⟨M, hM, -⟩, -⟩ := hold
    exact go _ _ (.load hh hM)
  | store m o os acc i v =>
    obtain ⟨⟨M, hM, -⟩, -⟩ := hold
    exact go _ _ (.store hh hM)
  | rstore m acc v =>
    obtain ⟨⟨M, hM, -⟩, -⟩ := hold
    exact go _ _ (.counted hh hM)
  | push n ts =>
    obtain ⟨⟨M, hM⟩, -⟩ := hold
    cases ts with
    | nil => exact go _ _ (.check _ hh hM (.refl _))
    | cons t ts =>
      cases hc : f.closed with
      | true => exact go _ _ (.pushClosed hh hc)
      | false => exact go _ _ (.push hh hc (by rw [rest_queue ht hr hcpu]; exact htc))
  | check n todo =>
    obtain ⟨M, hM⟩ := hold
    cases todo with
    | nil => exact go _ _ (.spawn hh)
    | cons e todo =>
      obtain ⟨k, v⟩ := e
      by_cases hv : v = (M.totalReceived.lookup k).getD 0
      · exact go _ _ (.same hh hM hv)
      · exact go _ _ (.differs hh hM hv)

theorem rest_output {env : Env} {f : State} (hr : Rest env f) : f.output = [] := by
  by_contra hne
  obtain ⟨n, l, hb⟩ := List.exists_cons_of_ne_nil hne
  exact hr.2 _ _ (.read (.recv hb) ⟨_, List.mem_singleton.2 rfl, _, rfl⟩)

theorem rest_body {env : Env} {f : State} (hs : SInv f) (hr : Rest env f) {j g : Nat} {n : Str} {pc : SPc} (hj : f.shufs[j]? = some (g, n, pc)) : ¬ isBody pc := by
  intro hb
  obtain ⟨M, hM, hok⟩ := hs.ok _ _ _ (List.mem_of_getElem? hj)
  have go : ∀ evs s', ShufStep env f evs s' → False := fun evs s' h => hr.2 _ _ (.shuf h)
  cases pc with
  | copy orig =>
    obtain ⟨-, -, ho⟩ := hok
    have hle : orig.length ≤ M.outputs.length := by
      have := congrArg List.length ho
      simp at this; exact this
    by_cases hl : orig.length < M.outputs.length
    · exact go _ _ (.copy hj hM (List.getElem?_eq_getElem hl))
    · obtain ⟨p, rest, hp, -⟩ := Shuffle.permutation_perm Shuffle.scripted [] orig.length
      exact go _ _ (.draw (words := []) hj hM (by omega) hp)
  | put orig p words i =>
    obtain ⟨-, -, hlen, hi, ⟨rest, hp⟩, -⟩ := hok
    by_cases hl : i < M.outputs.length
    · by_cases hk : ∃ k x, p[i]? = some k ∧ orig[k]? = some x
      · obtain ⟨k, x, hk, hx⟩ := hk
        exact go _ _ (.put hj hM hl hk hx)
      · refine go _ _ (.badIndex hj hM hl fun k hk' => ?_)
        cases hx : orig[k]? with
        | none => rfl
        | some x => exact absurd ⟨k, x, hk', hx⟩ hk
    · exact go _ _ (.signal hj hM hl)
  | leave => exact go _ _ (.leave hj hM)
  | _ => exact hb

/-- Only goroutines that wait for results that have not come are left. -/
theorem rest_shufs {env : Env} {f : State} (hs : SInv f) (hr : Rest env f) (hoc : 0 < env.outCap) {j g : Nat} {n : Str} {pc : SPc} (hj : f.shufs[j]? = some (g, n, pc)) :
    pc = .start ∧ ∃ M, f.mixes n = some M ∧ M.wg ≠ 0 := by
  obtain ⟨M, hM, hok⟩ := hs.ok _ _ _ (List.mem_of_getElem? hj)
  have hnb := rest_body hs hr hj
  have go : ∀ evs s', ShufStep env f evs s' → False := fun evs s' h => hr.2 _ _ (.shuf h)
  have hmx := hs.mix n M hM
  cases pc with
  | start =>
    refine ⟨rfl, M, hM, fun hw => go _ _ (.start hj hM hw)⟩
  | enter =>
    exfalso
    cases ho : M.once with
    | fresh => exact go _ _ (.first hj hM ho)
    | done => exact go _ _ (.later hj hM ho)
    | running =>
      obtain ⟨g', pc', he, hb⟩ := hmx.running ho
      obtain ⟨j', hj'⟩ := List.mem_iff_getElem?.1 he
      exact rest_body hs hr hj' hb
  | after =>
    exfalso
    have hd : M.once = .done := hok
    cases hl : M.isLastLayer with
    | true => exact go _ _ (.last hj hM hl)
    | false => exact go _ _ (.waited hj hM hl (hmx.wg (by rw [hd]; intro e; cases e)))
  | wait => exact (go _ _ (.outputs hj hM (hmx.done hok.1))).elim
  | send => exact (go _ _ (.send hj (by rw [rest_output hr]; exact hoc))).elim
  | _ => exact absurd trivial hnb

/-- The corresponding state of Model/Mixer is at rest too. -/
theorem rest_coarse {env : Env} {last : Str → Bool} {f : State} {c : Mixer.State} (h : R env last f c) (ht : TInv f) (hs : SInv f) (hr : Rest env f)
    (hcpu : 0 < env.nCPU) (htc : 0 < env.taskCap) (hoc : 0 < env.outCap) : ∀ a, a.internal → Mixer.step env c a = none := by
  have hb := rest_busy ht hr
  have hq := rest_queue ht hr hcpu
  have hh := rest_holder ht hr hcpu htc
  have ho := rest_output hr
  have cq : c.queue = [] := by rw [h.queue, hq]
  have cb : c.busy = [] := by rw [h.busy, hb]; rfl
  have ch : c.holder = none := by rw [h.holder, hh]; rfl
  have co : c.output = [] := by have := h.output; rw [ho] at this; exact List.map_eq_nil_iff.1 this
  have hall : ∀ e ∈ f.shufs, e.2.2 = .start ∧ ∃ M, f.mixes e.2.1 = some M ∧ M.wg ≠ 0 := by
    intro e he
    obtain ⟨j, hj⟩ := List.mem_iff_getElem?.1 he
    obtain ⟨g, n, pc⟩ := e
    exact rest_shufs hs hr hoc hj
  have csh : ∀ (i : Nat) (x : Shuf), c.shufs[i]? = some x → x.passed = false ∧ ∃ ms, c.states x.mix = some ms ∧ ms.wg ≠ 0 := by
    intro i x hx
    have hm := List.mem_of_getElem? hx
    rw [h.shufs] at hm
    obtain ⟨e, he, hf⟩ := List.mem_filterMap.1 hm
    obtain ⟨h1, M, hM, hw⟩ := hall e he
    rw [shufC, h1] at hf
    cases hf
    obtain ⟨ms, hms, hr⟩ := h.mix _ _ hM
    refine ⟨rfl, ms, hms, ?_⟩
    have := hr.wg
    rw [hb] at this
    simp [wrN] at this
    rw [this]; exact hw
  intro a ha
  simp only [Mixer.step, h.crashed]
  cases a with
  | call ms => exact ha.elim
  | close => exact ha.elim
  | addStep => simp [Mixer.addStep, ch]
  | take => simp [cq]
  | finish i => simp [cb]
  | recv => simp [co]
  | shuffle i words =>
    cases hi : c.shufs[i]? with
    | none => simp [Mixer.shuffleStep, hi]
    | some x =>
      obtain ⟨h1, ms, h2, h3⟩ := csh i x hi
      obtain ⟨n, b⟩ := x
      dsimp only at h1 h2
      subst h1
      simp [Mixer.shuffleStep, hi, h2, h3]
  | send i =>
    cases hi : c.shufs[i]? with
    | none => simp [Mixer.sendStep, hi]
    | some x =>
      obtain ⟨h1, ms, h2, h3⟩ := csh i x hi
      obtain ⟨n, b⟩ := x
      dsimp only at h1 h2
      subst h1
      simp [Mixer.sendStep, hi]

/-- What GetMixOutputs of Model/Mixer returns is available to every caller here. -/
theorem rest_get {env : Env} {last : Str → Bool} {f : State} {c : Mixer.State} (h : R env last f c) (ht : TInv f) (hs : SInv f) (hr : Rest env f)
    {n : Str} {out : List Bytes} (hg : Mixer.getMixOutputs c n = some (.ok out)) :
    (∃ M, f.mixes n = some M ∧ M.outputs = out) ∧ ∀ (k : Nat) (pc : GPc), f.getters[k]? = some (n, pc) → pc = .reading := by
  cases hM : f.mixes n with
  | none => simp [Mixer.getMixOutputs, h.crashed, h.none n hM] at hg
  | some M =>
    obtain ⟨ms, hms, hmr⟩ := h.mix _ _ hM
    have hb := rest_busy ht hr
    have hwg : ms.wg = M.wg := by have := hmr.wg; rw [hb] at this; simpa [wrN] using this
    have hz : ms.wg = 0 ∧ ms.shuffleWait = 0 := by
      by_contra hn
      simp [Mixer.getMixOutputs, h.crashed, hms, Mixer.getOutputs, hn] at hg
    have hsw : M.shuffleWait = 0 := by rw [← hmr.sw]; exact hz.2
    have hget := h.get ht hs hM hsw
    rw [hget] at hg
    refine ⟨⟨M, rfl, by simpa using hg⟩, fun k pc hk => ?_⟩
    cases pc with
    | reading => rfl
    | start => exact (hr.2 _ _ (.read (.getWg hk hM (by rw [← hwg]; exact hz.1)) ⟨_, List.mem_singleton.2 rfl, _, rfl⟩)).elim
    | wait => exact (hr.2 _ _ (.read (.getShuffled hk hM hsw) ⟨_, List.mem_singleton.2 rfl, _, rfl⟩)).elim

theorem deliveredFrom_calls (acts : List Action) (pk : Str × Str) (n : Str) : Mixer.deliveredFrom acts pk n = onionsFrom (callsOf acts) pk n := by
  induction acts with
  | nil => rfl
  | cons a as ih =>
    rw [Mixer.deliveredFrom, List.flatMap_cons]
    rw [Mixer.deliveredFrom] at ih
    rw [ih]
    cases a <;> simp [onionsFrom, callsOf]

end Resmix.MixerFine
