import Verif.Proofs.MixerE
set_option autoImplicit false
/-
A round object that is at rest and alive got no more than announced; and what comes from a stranger takes a place that is then missing (C144).
-/
namespace Resmix.Mixer

/-- Over-delivery leaves a task with a negative index. -/
def Neg (s : State) (n : Str) : Prop :=
  ∀ ms, s.states n = some ms → ms.outputs.length < ms.added.length → ∃ t ∈ tasks s, t.mix = n ∧ t.idx < 0

theorem mkTasks_last (n : Str) (w : Int) (os : List Bytes) (h : os ≠ []) (hneg : w - os.length < 0) : ∃ t ∈ mkTasks n w os, t.mix = n ∧ t.idx < 0 := by
  induction os generalizing w with
  | nil => exact absurd rfl h
  | cons o os ih =>
    by_cases hos : os = []
    · subst hos
      exact ⟨⟨n, o, w - 1⟩, by simp [mkTasks], rfl, by simpa using hneg⟩
    · obtain ⟨t, ht, h1, h2⟩ := ih (w - 1) hos (by simp at hneg; omega)
      exact ⟨t, by simp [mkTasks, ht], h1, h2⟩

theorem Neg.step {env : Env} {s s' : State} {a : Action} {n : Str} (hI : Inv env s) (hN : Neg s n) (h : StepR env s a s') : Neg s' n := by
  intro ms' hn' hlt
  cases h with
  | call h =>
    obtain ⟨t, ht, h1⟩ := hN ms' hn' hlt
    exact ⟨t, by simpa [tasks, h] using ht, h1⟩
  | release h =>
    obtain ⟨t, ht, h1⟩ := hN ms' hn' hlt
    exact ⟨t, by simpa [tasks, h] using ht, h1⟩
  | @handle m rest ms0 h hm =>
    by_cases he : n = m.logicalReceiver
    · subst he
      simp only [State.set, if_true, Option.some.injEq] at hn'
      subst hn'
      simp only [handleNewInputs] at hlt
      by_cases hmm : m.messages = []
      · rw [hmm, List.append_nil] at hlt
        obtain ⟨t, ht, h1⟩ := hN ms0 hm hlt
        refine ⟨t, ?_, h1⟩
        simp only [tasks, h, List.nil_append, List.mem_append] at ht
        simp only [tasks, State.set, List.mem_append]
        rcases ht with ht | ht
        · exact .inl (.inr ht)
        · exact .inr ht
      · have htw := (hI.mix _ _ hm).tw
        obtain ⟨t, ht, h1⟩ := mkTasks_last m.logicalReceiver ms0.totalWorkload m.messages hmm (by
          rw [htw]; rw [List.length_append] at hlt; omega)
        exact ⟨t, by simp only [tasks, handleNewInputs, State.set, List.mem_append]; exact .inl (.inl ht), h1⟩
    · simp only [State.set, he, if_false] at hn'
      obtain ⟨t, ht, h1⟩ := hN ms' hn' hlt
      refine ⟨t, ?_, h1⟩
      simp only [tasks, h, List.nil_append, List.mem_append] at ht
      simp only [tasks, State.set, List.mem_append]
      rcases ht with ht | ht
      · exact .inl (.inr ht)
      · exact .inr ht
  | push h hcl hq =>
    obtain ⟨t, ht, h1⟩ := hN ms' hn' hlt
    refine ⟨t, ?_, h1⟩
    simp only [tasks, h, List.mem_append, List.mem_cons, List.not_mem_nil, or_false] at ht ⊢
    tauto
  | doneYes h hm hd =>
    obtain ⟨t, ht, h1⟩ := hN ms' hn' hlt
    exact ⟨t, by simpa [tasks, h] using ht, h1⟩
  | doneNo h hm hd =>
    obtain ⟨t, ht, h1⟩ := hN ms' hn' hlt
    exact ⟨t, by simpa [tasks, h] using ht, h1⟩
  | take hq hb =>
    obtain ⟨t, ht, h1⟩ := hN ms' hn' hlt
    refine ⟨t, ?_, h1⟩
    simp only [tasks, hq, List.mem_append, List.mem_cons, List.not_mem_nil, or_false] at ht ⊢
    tauto
  | @finish i t ms0 ht hd hm h0 h1 hw =>
    have old : ∃ t ∈ tasks s, t.mix = n ∧ t.idx < 0 := by
      by_cases he : n = t.mix
      · subst he
        simp only [State.set, if_true, Option.some.injEq] at hn'
        subst hn'
        exact hN ms0 hm (by simpa using hlt)
      · simp only [State.set, he, if_false] at hn'
        exact hN ms' hn' hlt
    obtain ⟨t', ht', h2, h3⟩ := old
    refine ⟨t', ?_, h2, h3⟩
    have hp := perm_eraseIdx _ _ _ ht
    simp only [tasks, State.set, List.mem_append] at ht' ⊢
    rcases ht' with ht' | ht'
    · exact .inl ht'
    · rcases List.mem_cons.1 (hp.mem_iff.1 ht') with rfl | ht'
      · omega
      · exact .inr ht'
  | again hi hm hw ho => exact hN ms' hn' hlt
  | @shuffle i words n0 ms0 out hi hm hw ho hout =>
    by_cases he : n = n0
    · subst he
      simp only [State.set, if_true, Option.some.injEq] at hn'
      subst hn'
      exact hN ms0 hm (by rw [← hout.length_eq]; exact hlt)
    · simp only [State.set, he, if_false] at hn'
      exact hN ms' hn' hlt
  | send hi hm hw hsw hcap => exact hN ms' hn' hlt
  | recv hq => exact hN ms' hn' hlt
  | close hcl => exact hN ms' hn' hlt

theorem exec_neg {env : Env} {s0 s : State} {as : List Action} (hI : Inv env s0) (hx : exec env s0 as = some s) (hc : s.crashed = false) {n : Str}
    (h0 : Neg s0 n) : Neg s n := by
  induction as using List.reverseRecOn generalizing s with
  | nil => cases hx; exact h0
  | append_singleton as a ih =>
    obtain ⟨s1, h1, h2⟩ := exec_snoc hx
    have hc1 := step_not_crashed h2
    exact (ih h1 hc1).step (exec_inv hI h1 hc1) (stepR_of_step h2 hc)

/-- A mix shuffles only when its predecessor has delivered all it announced. -/
theorem exec_once_recv {env : Env} {s0 s : State} {as : List Action} (hI : Inv env s0) (hx : exec env s0 as = some s)
    (hc : s.crashed = false) {n : Str} {pk : Str × Str} {ms0 : MixState} (hn : s0.states n = some ms0)
    (hadd : ms0.added = []) (hh : s0.holder = none) (g0 : GInv s0 n pk ms0) (hsh : s0.shufs = []) (ho : ms0.once = false)
    (hle : (delivered as n).length ≤ ms0.outputs.length) :
    ∃ ms, s.states n = some ms ∧ (ms.once = true → (ms.outputs.length : Int) ≤ recvOf ms pk) := by
  induction as using List.reverseRecOn generalizing s with
  | nil => cases hx; exact ⟨ms0, hn, by simp [ho]⟩
  | append_singleton as a ih =>
    obtain ⟨s1, h1, h2⟩ := exec_snoc hx
    have hc1 := step_not_crashed h2
    have hle' := hle
    rw [delivered_snoc, List.length_append] at hle'
    obtain ⟨ms1, hs1, hsp⟩ := ih h1 hc1 (by omega)
    obtain ⟨ms1', hs1', hsh1⟩ := exec_shuf_recv hI h1 hc1 hn hadd hh g0 hsh (by omega)
    rw [hs1] at hs1'; cases hs1'
    have hR := stepR_of_step h2 hc
    obtain ⟨ms2, hs2, hl2, _, _, _, _⟩ := stepR_mix hR hs1
    refine ⟨ms2, hs2, fun hon => ?_⟩
    clear h2
    cases hR with
    | @handle m rest ms3 h hm =>
      by_cases he : n = m.logicalReceiver
      · subst he; rw [hm] at hs1; cases hs1
        simp only [State.set, if_true, Option.some.injEq] at hs2
        subst hs2
        have := hsp hon
        have h3 := recvOf_handle ms1 m pk
        rw [hl2]
        rw [h3]
        split <;> omega
      · simp only [State.set, he, if_false] at hs2
        have e : some ms1 = some ms2 := hs1.symm.trans hs2; cases e; exact hsp hon
    | @finish i t ms3 ht hd hm h0 h1' hw =>
      by_cases he : n = t.mix
      · subst he; rw [hm] at hs1; cases hs1
        simp only [State.set, if_true, Option.some.injEq] at hs2
        subst hs2
        have := hsp hon
        simpa [recvOf] using this
      · simp only [State.set, he, if_false] at hs2
        have e : some ms1 = some ms2 := hs1.symm.trans hs2; cases e; exact hsp hon
    | @shuffle i words n0 ms3 out hi hm hw ho' hout =>
      by_cases he : n = n0
      · subst he; rw [hm] at hs1; cases hs1
        simp only [State.set, if_true, Option.some.injEq] at hs2
        subst hs2
        have := hsh1 _ (List.mem_of_getElem? hi) rfl
        rw [hl2]
        exact Int.le_of_eq this.symm
      · simp only [State.set, he, if_false] at hs2
        have e : some ms1 = some ms2 := hs1.symm.trans hs2; cases e; exact hsp hon
    | _ => have e : some ms1 = some ms2 := hs1.symm.trans hs2; cases e; exact hsp hon

theorem flatMap_length_le {α β : Type} {f g : α → List β} {l : List α} (h : ∀ a ∈ l, (f a).length ≤ (g a).length) : (l.flatMap f).length ≤ (l.flatMap g).length := by
  induction l with
  | nil => simp
  | cons a l ih =>
    simp only [List.flatMap_cons, List.length_append]
    have := ih fun a ha => h a (List.mem_cons_of_mem _ ha)
    have := h a List.mem_cons_self
    omega

theorem flatMap_length_lt {α β : Type} {f g : α → List β} {l : List α} (h : ∀ a ∈ l, (f a).length ≤ (g a).length) {x : α} (hx : x ∈ l)
    (hlt : (f x).length < (g x).length) : (l.flatMap f).length < (l.flatMap g).length := by
  induction l with
  | nil => cases hx
  | cons a l ih =>
    simp only [List.flatMap_cons, List.length_append]
    have h1 := flatMap_length_le fun a ha => h a (List.mem_cons_of_mem _ ha)
    have h2 := h a List.mem_cons_self
    rcases List.mem_cons.1 hx with rfl | hx
    · omega
    · have := ih (fun a ha => h a (List.mem_cons_of_mem _ ha)) hx
      omega

theorem filter_flatMap {α β : Type} (p : α → Bool) (f : α → List β) (l : List α) : (l.filter p).flatMap f = l.flatMap fun a => if p a then f a else [] := by
  induction l with
  | nil => rfl
  | cons a l ih => rw [List.filter_cons]; split <;> simp [*]

theorem from_le (acts : List Action) (pk : Str × Str) (n : Str) : (deliveredFrom acts pk n).length ≤ (delivered acts n).length := by
  unfold deliveredFrom delivered
  refine flatMap_length_le fun a _ => ?_
  cases a with
  | call ms =>
    simp only [deliveredBy, onionsFor, filter_flatMap]
    refine flatMap_length_le fun m _ => ?_
    by_cases h1 : m.logicalReceiver = n
    · by_cases h2 : (m.physicalSender, m.logicalSender) = pk <;> simp [h1, h2]
    · simp [h1]
  | _ => simp

theorem foreign_lt {acts : List Action} {pk : Str × Str} {n : Str} {ms : List Messages} (hms : .call ms ∈ acts) {m : Messages} (hm : m ∈ ms)
    (hr : m.logicalReceiver = n) (hs : (m.physicalSender, m.logicalSender) ≠ pk) (hne : m.messages ≠ []) :
    (deliveredFrom acts pk n).length < (delivered acts n).length := by
  have le : ∀ (ms : List Messages), ∀ m ∈ ms, (if (decide (m.logicalReceiver = n ∧ (m.physicalSender, m.logicalSender) = pk)) = true then m.messages else []).length ≤
      (if (decide (m.logicalReceiver = n)) = true then m.messages else []).length := by
    intro ms m _
    by_cases h1 : m.logicalReceiver = n
    · by_cases h2 : (m.physicalSender, m.logicalSender) = pk <;> simp [h1, h2]
    · simp [h1]
  unfold deliveredFrom delivered
  refine flatMap_length_lt ?_ hms ?_
  · intro a _
    cases a with
    | call ms =>
      simp only [deliveredBy, onionsFor, filter_flatMap]
      exact flatMap_length_le (le ms)
    | _ => simp
  · simp only [deliveredBy, onionsFor, filter_flatMap]
    refine flatMap_length_lt (le ms) hm ?_
    have := List.length_pos_iff.2 hne
    simp [hr, hs, this]

/-- The process alone makes boundedly many steps, whatever was sent to it. -/
theorem own_bounded (env : Env) (s : State) : ∃ N, ∀ steps s', (∀ a ∈ steps, a.internal) → exec env s steps = some s' → steps.length ≤ N := by
  refine ⟨weight s + 1, fun steps s' hi hx => ?_⟩
  cases steps using List.reverseRecOn with
  | nil => simp
  | append_singleton as a =>
    obtain ⟨s1, h1, h2⟩ := exec_snoc hx
    have := exec_weight h1 (step_not_crashed h2) fun b hb => hi b (by simp [hb])
    simp only [List.length_append, List.length_cons, List.length_nil]
    omega

/-- At rest nothing is queued. -/
theorem quiet_of_rest {env : Env} {s : State} (hcpu : 0 < env.nCPU) (htc : 0 < env.taskCap) (hI : Inv env s) (hc : s.crashed = false)
    (hrest : ∀ a, a.internal → step env s a = none) : s.holder = none ∧ s.queue = [] ∧ s.busy = [] := by
  have hbusy : s.busy = [] := by
    cases hb : s.busy with
    | nil => rfl
    | cons t q => have := hrest (.finish 0) trivial; simp [step, hc, hb] at this
  have hq : s.queue = [] := by
    cases hq : s.queue with
    | nil => rfl
    | cons t q => have := hrest .take trivial; simp [step, hc, hq, hbusy, hcpu] at this
  refine ⟨?_, hq, hbusy⟩
  cases hh : s.holder with
  | none => rfl
  | some hd =>
    exfalso
    have h := hrest .addStep trivial
    simp only [step, hc, Mixer.addStep] at h
    obtain ⟨cur, rest⟩ := hd
    cases cur with
    | none => cases rest <;> simp [hh] at h; split at h <;> simp at h
    | some c =>
      obtain ⟨n, ts⟩ := c
      cases ts with
      | nil =>
        obtain ⟨ms, hm⟩ := Option.isSome_iff_exists.1 (hI.cur n [] rest hh).1
        simp [hh, hm] at h
        split at h <;> simp at h
      | cons t ts => cases hcl : s.closed <;> simp [hh, hq, htc, hcl] at h

/-- As long as the expected sender has not delivered everything, and no more than announced came in all, the mix returns nothing. -/
theorem blocked_of_short {env : Env} {topo : Topology} {mixes : List LogicalMix} {w : GoMap Str Int} {s0 s : State} {acts : List Action}
    (h0 : newMixers topo mixes w = .ok s0) (hnd : (mixes.map (·.name)).Nodup) (hx : exec env s0 acts = some s) {mix : LogicalMix} (hmix : mix ∈ mixes) {pk : Str × Str}
    (hpk : ExpectsOnly topo w mix pk) (hle : (delivered acts mix.name).length ≤ workloadOf w mix.name)
    (hlt : (deliveredFrom acts pk mix.name).length < workloadOf w mix.name) : getMixOutputs s mix.name = none := by
  cases hc : s.crashed with
  | true => simp [getMixOutputs, hc]
  | false =>
    obtain ⟨ms0, hn0, hadd, hlen, hg0, hrec0, _⟩ := init_ginv h0 hnd hmix hpk
    have hspec := newMixers_spec h0
    have honce : ms0.once = false := by
      obtain ⟨mx, _, _, hmx⟩ := hspec.1 _ _ hn0
      exact (newMixState_spec hmx).2.2.2.1
    have hI := exec_inv (inv_init h0) hx hc
    obtain ⟨ms1, hn1, hl1, _, hd1, hg1, hr1⟩ := exec_ginv (inv_init h0) hx hc hn0 hadd hspec.2.2.2.2.1 hg0
    obtain ⟨ms2, hn2, hon⟩ := exec_once_recv (inv_init h0) hx hc hn0 hadd hspec.2.2.2.2.1 hg0 hspec.2.2.2.2.2.1 honce (by rw [hlen]; exact hle)
    rw [hn1] at hn2; cases hn2
    have hoff : ms1.once = false := by
      by_contra hne'
      have h1 := hon (by simpa using hne')
      omega
    have hsw := (hI.mix _ _ hn1).sw.1
    rw [hoff] at hsw
    simp [getMixOutputs, hc, hn1, getOutputs, hsw]

theorem rest_of_idle {env : Env} {s : State} (h : Idle s) : ∀ a, a.internal → step env s a = none := by
  obtain ⟨h1, h2, h3, h4, h5⟩ := h
  intro a ha
  unfold step
  split
  · rfl
  · cases a <;> simp_all [Action.internal, addStep, shuffleStep, sendStep]

end Resmix.Mixer
