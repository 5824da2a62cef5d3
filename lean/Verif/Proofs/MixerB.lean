import Verif.Proofs.Mixer
import Verif.Spec.Mixer
set_option autoImplicit false
namespace Resmix.Mixer

/-- The non-crashing steps, one constructor per case. -/
inductive StepR (env : Env) : State → Action → State → Prop
  | call {s ms} (h : s.holder = none) : StepR env s (.call ms) { s with holder := some ⟨none, ms⟩ }
  | release {s} (h : s.holder = some ⟨none, []⟩) : StepR env s .addStep { s with holder := none }
  | handle {s m rest ms} (h : s.holder = some ⟨none, m :: rest⟩) (hm : s.states m.logicalReceiver = some ms) :
      StepR env s .addStep { s.set m.logicalReceiver (handleNewInputs ms m).1 with
        holder := some ⟨some (m.logicalReceiver, (handleNewInputs ms m).2), rest⟩ }
  | push {s n t ts rest} (h : s.holder = some ⟨some (n, t :: ts), rest⟩) (hcl : s.closed = false)
      (hq : s.queue.length < env.taskCap) :
      StepR env s .addStep { s with queue := s.queue ++ [t], holder := some ⟨some (n, ts), rest⟩ }
  | doneYes {s n rest ms} (h : s.holder = some ⟨some (n, []), rest⟩) (hm : s.states n = some ms) (hd : isDone ms = true) :
      StepR env s .addStep { s with shufs := s.shufs ++ [⟨n, false⟩], holder := some ⟨none, rest⟩ }
  | doneNo {s n rest ms} (h : s.holder = some ⟨some (n, []), rest⟩) (hm : s.states n = some ms) (hd : isDone ms = false) :
      StepR env s .addStep { s with holder := some ⟨none, rest⟩ }
  | take {s t q} (hq : s.queue = t :: q) (hb : s.busy.length < env.nCPU) :
      StepR env s .take { s with queue := q, busy := s.busy ++ [t] }
  | finish {s i t ms} (ht : s.busy[i]? = some t) (hd : env.decrypt t.input ≠ .error .panic)
      (hm : s.states t.mix = some ms) (h0 : 0 ≤ t.idx) (h1 : t.idx < ms.outputs.length) (hw : 0 < ms.wg) :
      StepR env s (.finish i) (State.set { s with busy := s.busy.eraseIdx i } t.mix
        { ms with outputs := ms.outputs.set t.idx.toNat (resultOf env t.input), wg := ms.wg - 1 })
  | again {s i words n ms} (hi : s.shufs[i]? = some ⟨n, false⟩) (hm : s.states n = some ms) (hw : ms.wg = 0)
      (ho : ms.once = true) :
      StepR env s (.shuffle i words) { s with shufs := (if ms.isLastLayer then s.shufs.eraseIdx i else s.shufs.set i ⟨n, true⟩) }
  | shuffle {s i words n ms out} (hi : s.shufs[i]? = some ⟨n, false⟩) (hm : s.states n = some ms) (hw : ms.wg = 0)
      (ho : ms.once = false) (hout : out.Perm ms.outputs) :
      StepR env s (.shuffle i words) (State.set { s with shufs := (if ms.isLastLayer then s.shufs.eraseIdx i else s.shufs.set i ⟨n, true⟩) } n
            ({ ms with outputs := out, shuffleWait := ms.shuffleWait - 1, once := true, shuffles := ms.shuffles + 1 }))
  | send {s i n ms} (hi : s.shufs[i]? = some ⟨n, true⟩) (hm : s.states n = some ms) (hw : ms.wg = 0)
      (hsw : ms.shuffleWait = 0) (hcap : s.output.length < env.outCap) :
      StepR env s (.send i) ({ s with shufs := s.shufs.eraseIdx i
                                      output := s.output ++ [⟨ms.outputs, n⟩]
                                      sent := s.sent ++ [⟨ms.outputs, n⟩] })
  | recv {s b q} (hq : s.output = b :: q) : StepR env s .recv { s with output := q }
  | close {s} (hcl : s.closed = false) : StepR env s .close { s with closed := true }

theorem stepR_of_step {env : Env} {s s' : State} {a : Action} (hs : step env s a = some s')
    (hc : s'.crashed = false) : StepR env s a s' := by
  have hnc := step_not_crashed hs
  unfold Mixer.step at hs
  rw [if_neg (by simp [hnc])] at hs
  cases a with
  | call ms =>
    simp only at hs
    split at hs
    · cases hs
    · next hh => cases hs; exact .call (by simpa using hh)
  | addStep =>
    simp only [Mixer.addStep] at hs
    split at hs
    · cases hs
    · next hh => cases hs; exact .release hh
    · next m rest hh =>
      split at hs
      · cases hs; simp [State.crash] at hc
      · next ms hm => cases hs; exact .handle hh hm
    · next n t ts rest hh =>
      split at hs
      · cases hs; simp [State.crash] at hc
      · next hcl =>
        split at hs
        · next hq => cases hs; exact .push hh (by simpa using hcl) hq
        · cases hs
    · next n rest hh =>
      split at hs
      · cases hs
      · next ms hm =>
        split at hs
        · next hd => cases hs; exact .doneYes hh hm hd
        · next hd => cases hs; exact .doneNo hh hm (by simpa using hd)
  | take =>
    simp only at hs
    split at hs
    · cases hs
    · next t q hq =>
      split at hs
      · next hb => cases hs; exact .take hq hb
      · cases hs
  | finish i =>
    simp only at hs
    split at hs
    · cases hs
    · next t ht =>
      cases hs
      unfold Mixer.finishTask at hc ⊢
      split at hc
      · simp [State.crash] at hc
      · next hnp =>
        simp only at hc ⊢
        split at hc
        · simp [State.crash] at hc
        · next ms hm =>
          split at hc
          · next hidx =>
            split at hc
            · simp [State.crash] at hc
            · next hwg =>
              simp only [if_pos hidx, if_neg hwg]
              exact .finish ht (fun h => hnp h) hm hidx.1 hidx.2 (by omega)
          · simp [State.crash] at hc
  | shuffle i words =>
    simp only [Mixer.shuffleStep] at hs
    split at hs
    · next n hi =>
      split at hs
      · cases hs
      · next ms hm =>
        split at hs
        · next hw =>
          split at hs
          · next ho => cases hs; exact .again hi hm hw ho
          · next hno =>
            obtain ⟨out, sh, hout, hperm⟩ := shuffle_ok words ms.outputs
            simp only [hout] at hs
            cases hs
            exact .shuffle hi hm hw (by simpa using hno) hperm
        · cases hs
    · cases hs
  | send i =>
    simp only [sendStep] at hs
    split at hs
    · next n hi =>
      split at hs
      · cases hs
      · next ms hm =>
        split at hs
        · cases hs
        · next out hout =>
          split at hs
          · next hcap =>
            cases hs
            unfold getOutputs at hout
            split at hout
            · next hw => cases hout; exact .send hi hm hw.1 hw.2 hcap
            · cases hout
          · cases hs
    · cases hs
  | recv =>
    simp only at hs
    split at hs
    · cases hs
    · next b q hq => cases hs; exact .recv hq
  | close =>
    simp only at hs
    split at hs
    · cases hs; simp [State.crash] at hc
    · next hcl => cases hs; exact .close (by simpa using hcl)

theorem set_states_self (s : State) (n : Str) (ms : MixState) : (s.set n ms).states n = some ms := by
  simp [State.set]

/-- Onions of batches the mutex holder has not handled yet. -/
def restFor (s : State) (n : Str) : List Bytes :=
  match s.holder with
  | none => []
  | some h => onionsFor n h.rest

theorem onionsFor_cons (n : Str) (m : Messages) (rest : List Messages) :
    onionsFor n (m :: rest) = (if m.logicalReceiver = n then m.messages else []) ++ onionsFor n rest := by
  unfold onionsFor
  by_cases h : m.logicalReceiver = n
  · simp [h]
  · simp [h]

/-- What a non-crashing step does to one mix. -/
theorem stepR_mix {env : Env} {s s' : State} {a : Action} (h : StepR env s a s') {n : Str} {ms : MixState}
    (hn : s.states n = some ms) : ∃ ms', s'.states n = some ms' ∧ ms'.outputs.length = ms.outputs.length ∧
      ms'.predecessors = ms.predecessors ∧ ms'.isLastLayer = ms.isLastLayer ∧
      ms'.added ++ restFor s' n = ms.added ++ restFor s n ++ deliveredBy a n ∧
      (ms.once = true → ms'.once = true) := by
  cases h with
  | call h => exact ⟨ms, hn, rfl, rfl, rfl, by simp [restFor, h, deliveredBy], id⟩
  | release h => exact ⟨ms, hn, rfl, rfl, rfl, by simp [restFor, h, deliveredBy, onionsFor], id⟩
  | @handle m rest ms0 h hm =>
    by_cases he : n = m.logicalReceiver
    · subst he
      rw [hm] at hn; cases hn
      refine ⟨(handleNewInputs ms m).1, by simp [State.set], rfl, rfl, rfl, ?_, id⟩
      simp [restFor, h, deliveredBy, onionsFor_cons, handleNewInputs]
    · refine ⟨ms, by simp [State.set, he, hn], rfl, rfl, rfl, ?_, id⟩
      have : ¬ m.logicalReceiver = n := fun e => he e.symm
      simp [restFor, h, deliveredBy, onionsFor_cons, this]
  | push h hcl hq => exact ⟨ms, hn, rfl, rfl, rfl, by simp [restFor, h, deliveredBy], id⟩
  | doneYes h hm hd => exact ⟨ms, hn, rfl, rfl, rfl, by simp [restFor, h, deliveredBy], id⟩
  | doneNo h hm hd => exact ⟨ms, hn, rfl, rfl, rfl, by simp [restFor, h, deliveredBy], id⟩
  | take hq hb => exact ⟨ms, hn, rfl, rfl, rfl, by simp [restFor, deliveredBy], id⟩
  | @finish i t ms0 ht hd hm h0 h1 hw =>
    by_cases he : n = t.mix
    · subst he
      rw [hm] at hn; cases hn
      exact ⟨_, set_states_self _ _ _, by simp, rfl, rfl, by simp [restFor, deliveredBy, State.set], id⟩
    · exact ⟨ms, by simp [State.set, he, hn], rfl, rfl, rfl, by simp [restFor, deliveredBy, State.set], id⟩
  | again hi hm hw ho => exact ⟨ms, hn, rfl, rfl, rfl, by simp [restFor, deliveredBy], id⟩
  | @shuffle i words n0 ms0 out hi hm hw ho hout =>
    by_cases he : n = n0
    · subst he
      rw [hm] at hn; cases hn
      exact ⟨_, set_states_self _ _ _, by simp [hout.length_eq], rfl, rfl,
        by simp [restFor, deliveredBy, State.set], fun _ => rfl⟩
    · exact ⟨ms, by simp [State.set, he, hn], rfl, rfl, rfl, by simp [restFor, deliveredBy, State.set], id⟩
  | send hi hm hw hsw hcap => exact ⟨ms, hn, rfl, rfl, rfl, by simp [restFor, deliveredBy], id⟩
  | recv hq => exact ⟨ms, hn, rfl, rfl, rfl, by simp [restFor, deliveredBy], id⟩
  | close hcl => exact ⟨ms, hn, rfl, rfl, rfl, by simp [restFor, deliveredBy], id⟩

theorem delivered_snoc (as : List Action) (a : Action) (n : Str) :
    delivered (as ++ [a]) n = delivered as n ++ deliveredBy a n := by
  simp [delivered]

/-- Link between the calls made and the onions a mix was given. -/
theorem exec_mix {env : Env} {s0 s : State} {as : List Action} (hx : exec env s0 as = some s) (hc : s.crashed = false)
    {n : Str} {ms0 : MixState} (hn : s0.states n = some ms0) (hadd : ms0.added = []) (hh : s0.holder = none) :
    ∃ ms, s.states n = some ms ∧ ms.outputs.length = ms0.outputs.length ∧ ms.predecessors = ms0.predecessors ∧
      ms.isLastLayer = ms0.isLastLayer ∧ ms.added ++ restFor s n = delivered as n := by
  induction as using List.reverseRecOn generalizing s with
  | nil => cases hx; exact ⟨ms0, hn, rfl, rfl, rfl, by simp [hadd, restFor, hh, delivered]⟩
  | append_singleton as a ih =>
    obtain ⟨s1, h1, h2⟩ := exec_snoc hx
    obtain ⟨ms1, hs1, hl1, hp1, hla1, hd1⟩ := ih h1 (step_not_crashed h2)
    obtain ⟨ms2, hs2, hl2, hp2, hla2, hd2, _⟩ := stepR_mix (stepR_of_step h2 hc) hs1
    refine ⟨ms2, hs2, hl2.trans hl1, hp2.trans hp1, hla2.trans hla1, ?_⟩
    rw [hd2, hd1, delivered_snoc]

/-- A mix that does not exist never appears. -/
theorem exec_no_mix {env : Env} {s0 s : State} {as : List Action} (hx : exec env s0 as = some s) {n : Str}
    (hn : s0.states n = none) : s.states n = none := by
  induction as using List.reverseRecOn generalizing s with
  | nil => cases hx; exact hn
  | append_singleton as a ih =>
    obtain ⟨s1, h1, h2⟩ := exec_snoc hx
    have hs1 := ih h1
    have hnc := step_not_crashed h2
    unfold Mixer.step at h2
    rw [if_neg (by simp [hnc])] at h2
    cases a <;> simp only [Mixer.addStep, shuffleStep, sendStep, Mixer.finishTask] at h2 <;>
      (repeat' split at h2) <;> first
        | cases h2; done
        | (cases h2; exact hs1)
        | (cases h2
           simp only [State.set]
           split
           · next he => subst he; simp_all
           · exact hs1)

/-- Once shuffled, outputs do not change as long as nothing is over-delivered. -/
theorem stepR_final {env : Env} {s s' : State} {a : Action} (hI : Inv env s) (h : StepR env s a s') {n : Str}
    {ms : MixState} (hn : s.states n = some ms) (ho : ms.once = true) (hl : ms.added.length ≤ ms.outputs.length) :
    ∃ ms', s'.states n = some ms' ∧ ms'.outputs = ms.outputs ∧ ms'.wg = ms.wg ∧ ms'.shuffleWait = ms.shuffleWait := by
  have hfin := (((hI.mix n ms hn).body hl).fin ho).1
  cases h with
  | @handle m rest ms0 h hm =>
    by_cases he : n = m.logicalReceiver
    · subst he
      rw [hm] at hn; cases hn
      exact ⟨(handleNewInputs ms m).1, by simp [State.set], rfl, rfl, rfl⟩
    · exact ⟨ms, by simp [State.set, he, hn], rfl, rfl, rfl⟩
  | @finish i t ms0 ht hd hm h0 h1 hw =>
    by_cases he : n = t.mix
    · exfalso
      have : t ∈ pend s n := by
        simp only [pend, tasks, List.mem_filter, List.mem_append]
        exact ⟨.inr (List.mem_of_getElem? ht), by simp [he]⟩
      rw [hfin] at this; simp at this
    · exact ⟨ms, by simp [State.set, he, hn], rfl, rfl, rfl⟩
  | @shuffle i words n0 ms0 out hi hm hw hno hout =>
    by_cases he : n = n0
    · subst he
      rw [hm] at hn; cases hn
      rw [ho] at hno; cases hno
    · exact ⟨ms, by simp [State.set, he, hn], rfl, rfl, rfl⟩
  | _ => exact ⟨ms, hn, rfl, rfl, rfl⟩

theorem getOutputs_once {env : Env} {ms : MixState} {P : List Task} (h : MInv env ms P) {out : List Bytes}
    (hg : getOutputs ms = some out) : ms.once = true ∧ ms.wg = 0 ∧ out = ms.outputs := by
  unfold getOutputs at hg
  split at hg
  · next hw =>
    cases hg
    have := h.sw.1
    refine ⟨?_, hw.1, rfl⟩
    cases ho : ms.once with
    | true => rfl
    | false => rw [ho, hw.2] at this; simp at this
  · cases hg

end Resmix.Mixer
