import Verif.Proofs.MixerD
set_option autoImplicit false
namespace Resmix.Mixer

/-! ### From the constructor to the invariants -/

theorem init_added {topo : Topology} {mixes : List LogicalMix} {w : GoMap Str Int} {s0 : State}
    (h : newMixers topo mixes w = .ok s0) : ∀ n ms, s0.states n = some ms → ms.added = [] := by
  intro n ms hn
  obtain ⟨mix, _, _, hm⟩ := (newMixers_spec h).1 n ms hn
  exact (newMixState_spec hm).2.2.1

theorem init_len {topo : Topology} {mixes : List LogicalMix} {w : GoMap Str Int} {s0 : State}
    (h : newMixers topo mixes w = .ok s0) : ∀ n ms, s0.states n = some ms → ms.outputs.length = workloadOf w n := by
  intro n ms hn
  obtain ⟨mix, _, rfl, hm⟩ := (newMixers_spec h).1 n ms hn
  exact (newMixState_spec hm).2.1

theorem setPredecessors_only {topo : Topology} {w : GoMap Str Int} {mix : LogicalMix} {pk : Str × Str}
    {ps : GoMap (Str × Str) Int} (he : ExpectsOnly topo w mix pk)
    (h : setPredecessors topo mix w ((w.lookup mix.name).getD 0) = .ok ps) :
    ps = [(pk, (w.lookup mix.name).getD 0)] := by
  rcases he with ⟨hp, rfl⟩ | ⟨p, pm, hp, hne, hg, rfl, hw⟩
  · simp [setPredecessors, hp] at h; cases h; simp [GoMap.insert, GoMap.erase]
  · simp [setPredecessors, hp, hne, hg] at h; cases h; simp [GoMap.insert, GoMap.erase, hw]

theorem init_ginv {topo : Topology} {mixes : List LogicalMix} {w : GoMap Str Int} {s0 : State}
    (h : newMixers topo mixes w = .ok s0) (hnd : (mixes.map (·.name)).Nodup) {mix : LogicalMix} (hmem : mix ∈ mixes)
    {pk : Str × Str} (he : ExpectsOnly topo w mix pk) :
    ∃ ms0, s0.states mix.name = some ms0 ∧ ms0.added = [] ∧ ms0.outputs.length = workloadOf w mix.name ∧
      GInv s0 mix.name pk ms0 ∧ recvOf ms0 pk = 0 ∧ ms0.isLastLayer = (mix.layer + 1 == topo.layers.length) := by
  obtain ⟨h1, h2, _, _, _, hsh, _, _, _, hse⟩ := newMixers_spec h
  obtain ⟨ms0, hn⟩ := Option.isSome_iff_exists.1 (h2 mix hmem)
  obtain ⟨mix', hmem', hname, hm⟩ := h1 _ _ hn
  have : mix' = mix := List.inj_on_of_nodup_map hnd hmem' hmem hname
  subst this
  obtain ⟨hw, hlen, hadd, honce, hsw, hwg, htw, hpre, hrec, hla, hshf⟩ := newMixState_spec hm
  have hps := setPredecessors_only he hpre
  have hW : ((w.lookup mix'.name).getD 0) = (ms0.outputs.length : Int) := by rw [hlen]; omega
  rw [hW] at hps
  refine ⟨ms0, hn, hadd, hlen, ginv_init hn hps hrec hsh hse, ?_, hla⟩
  simp [recvOf, hrec, hps, GoMap.lookup]

theorem wellFormed_of_good {env : Env} {topo : Topology} {mixes : List LogicalMix} {w : GoMap Str Int} {s0 : State}
    {acts : List Action} (h : newMixers topo mixes w = .ok s0) (hg : GoodRequests env mixes w acts) :
    WellFormed env s0 acts where
  receivers := by
    intro a ha ms hms m hm
    obtain ⟨mix, hmix, hn⟩ := hg.receivers a ha ms hms m hm
    rw [← hn]; exact (newMixers_spec h).2.1 mix hmix
  onions := hg.onions
  amounts := by
    intro n ms0 hn
    obtain ⟨mix, hmix, rfl, _⟩ := (newMixers_spec h).1 n ms0 hn
    rw [init_len h _ _ hn]; exact hg.amounts mix hmix
  open_ := hg.notClosed

theorem delivered_internal {bs : List Action} (hb : ∀ b ∈ bs, b.internal) (n : Str) : delivered bs n = [] := by
  rw [delivered, List.flatMap_eq_nil_iff]
  intro a ha
  have := hb a ha
  cases a <;> simp_all [Action.internal, deliveredBy]

theorem deliveredFrom_internal {bs : List Action} (hb : ∀ b ∈ bs, b.internal) (pk : Str × Str) (n : Str) :
    deliveredFrom bs pk n = [] := by
  rw [deliveredFrom, List.flatMap_eq_nil_iff]
  intro a ha
  have := hb a ha
  cases a <;> simp_all [Action.internal]

theorem delivered_append (a b : List Action) (n : Str) : delivered (a ++ b) n = delivered a n ++ delivered b n := by
  simp [delivered]

theorem GoodRequests.append_internal {env : Env} {mixes : List LogicalMix} {w : GoMap Str Int} {acts bs : List Action}
    (h : GoodRequests env mixes w acts) (hb : ∀ b ∈ bs, b.internal) : GoodRequests env mixes w (acts ++ bs) where
  receivers := by
    intro a ha ms hms
    rcases List.mem_append.1 ha with ha | ha
    · exact h.receivers a ha ms hms
    · have := hb a ha; subst hms; exact absurd this (by simp [Action.internal])
  onions := by
    intro a ha ms hms
    rcases List.mem_append.1 ha with ha | ha
    · exact h.onions a ha ms hms
    · have := hb a ha; subst hms; exact absurd this (by simp [Action.internal])
  amounts := by
    intro mix hm
    rw [delivered_append, delivered_internal hb, List.append_nil]; exact h.amounts mix hm
  notClosed := by
    intro hm
    rcases List.mem_append.1 hm with ha | ha
    · exact h.notClosed ha
    · exact absurd (hb _ ha) (by simp [Action.internal])

/-- What GetMixOutputs returns, in terms of the calls. -/
theorem outputs_of_get {env : Env} {topo : Topology} {mixes : List LogicalMix} {w : GoMap Str Int} {s0 s : State}
    {acts : List Action} {n : Str} {out : List Bytes} (h0 : newMixers topo mixes w = .ok s0)
    (hx : exec env s0 acts = some s) (hle : (delivered acts n).length ≤ workloadOf w n)
    (hg : getMixOutputs s n = some (.ok out)) :
    ∃ ms, s.states n = some ms ∧ ms.once = true ∧ ms.wg = 0 ∧ ms.shuffles = 1 ∧ out = ms.outputs ∧
      ms.outputs.length = workloadOf w n ∧ ms.added = delivered acts n ∧
      (delivered acts n).length = workloadOf w n ∧ out.Perm ((delivered acts n).map (resultOf env)) := by
  unfold getMixOutputs at hg
  split at hg
  · cases hg
  · next hc =>
    have hc : s.crashed = false := by simpa using hc
    split at hg
    · cases hg
    · next ms hn =>
      cases hgo : getOutputs ms with
      | none => simp [hgo] at hg
      | some o =>
        simp [hgo] at hg; subst hg
        have hI := exec_inv (inv_init h0) hx hc
        have hM := hI.mix n ms hn
        obtain ⟨ho, hwg, rfl⟩ := getOutputs_once hM hgo
        obtain ⟨ms0, hn0, hl, _, _, hd⟩ := exec_some hx hc (init_added h0) (newMixers_spec h0).2.2.2.2.1 hn
        have hl0 := init_len h0 n ms0 hn0
        have hd' := congrArg List.length hd
        simp only [List.length_append] at hd'
        have hle' : ms.added.length ≤ ms.outputs.length := by omega
        have hb := hM.body hle'
        obtain ⟨hP, hperm⟩ := hb.fin ho
        have hlen : ms.outputs.length = ms.added.length := by simpa using hperm.length_eq
        have hrest : restFor s n = [] := List.length_eq_zero_iff.1 (by omega)
        rw [hrest, List.append_nil] at hd
        refine ⟨ms, hn, ho, hwg, ?_, rfl, by omega, hd, by omega, hd ▸ hperm⟩
        rw [hM.sw.2, ho]; rfl

theorem getMixOutputs_final {env : Env} {s s' : State} {bs : List Action} (hx : exec env s bs = some s')
    (hc : s'.crashed = false) (hI : Inv env s) {n : Str} {ms : MixState}
    (hn : s.states n = some ms) (ho : ms.once = true)
    (hle : (ms.added ++ restFor s n ++ delivered bs n).length ≤ ms.outputs.length) :
    ∃ ms', s'.states n = some ms' ∧ ms'.outputs = ms.outputs ∧ ms'.wg = ms.wg ∧ ms'.shuffleWait = ms.shuffleWait ∧
      ms'.once = true ∧ (ms'.added ++ restFor s' n) = ms.added ++ restFor s n ++ delivered bs n := by
  induction bs using List.reverseRecOn generalizing s' with
  | nil => cases hx; exact ⟨ms, hn, rfl, rfl, rfl, ho, by simp [delivered]⟩
  | append_singleton bs b ih =>
    obtain ⟨s1, h1, h2⟩ := exec_snoc hx
    have hc1 := step_not_crashed h2
    rw [delivered_snoc] at hle
    simp only [List.length_append] at hle
    obtain ⟨ms1, hs1, e1, e2, e3, ho1, hd1⟩ := ih h1 hc1 (by simp only [List.length_append]; omega)
    have hR := stepR_of_step h2 hc
    obtain ⟨ms2, hs2, _, _, _, hd2, ho2⟩ := stepR_mix hR hs1
    have hl1 : ms1.added.length ≤ ms1.outputs.length := by
      have := congrArg List.length hd1
      simp only [List.length_append] at this
      rw [e1]; omega
    obtain ⟨ms2', hs2', f1, f2, f3⟩ := stepR_final (exec_inv hI h1 hc1) hR hs1 ho1 hl1
    rw [hs2] at hs2'; cases hs2'
    exact ⟨ms2, hs2, f1.trans e1, f2.trans e2, f3.trans e3, ho2 ho1, by rw [hd2, hd1, delivered_snoc]; simp⟩

/-- A stuck process is idle. -/
theorem idle_of_stuck {env : Env} {topo : Topology} {mixes : List LogicalMix} {w : GoMap Str Int} {s0 s : State}
    {acts : List Action} (h0 : newMixers topo mixes w = .ok s0) (hnd : (mixes.map (·.name)).Nodup)
    (hexp : ∀ mix ∈ mixes, ∃ pk, ExpectsOnly topo w mix pk)
    (hcpu : 0 < env.nCPU) (htc : 0 < env.taskCap) (hoc : 0 < env.outCap)
    (hx : exec env s0 acts = some s) (hg : GoodRequests env mixes w acts)
    (hstuck : ∀ a, a.internal → step env s a = none) : s.crashed = false ∧ Idle s := by
  have hspec := newMixers_spec h0
  have hh := hspec.2.2.2.2.1
  have hc := exec_safe (inv_init h0) hh (init_added h0) hspec.2.2.2.2.2.2.2.1 hspec.2.2.2.2.2.2.2.2.1 hx (wellFormed_of_good h0 hg)
  have hI := exec_inv (inv_init h0) hx hc
  have hfacts : ∀ n ms, s.states n = some ms → ∃ pk, GInv s n pk ms ∧ ms.added.length ≤ ms.outputs.length ∧
      ∀ f ∈ s.shufs, f.mix = n → ms.added.length = ms.outputs.length := by
    intro n ms hn
    obtain ⟨ms0, hn0, _⟩ := exec_some hx hc (init_added h0) hh hn
    obtain ⟨mix, hmix, rfl, _⟩ := hspec.1 _ _ hn0
    obtain ⟨pk, hpk⟩ := hexp mix hmix
    obtain ⟨ms0', hn0', hadd, hlen, g0, _, _⟩ := init_ginv h0 hnd hmix hpk
    rw [hn0] at hn0'; cases hn0'
    have hle := hg.amounts mix hmix
    obtain ⟨ms1, hs1, hl1, _, hd1, hg1, _⟩ := exec_ginv (inv_init h0) hx hc hn0 hadd hh g0
    rw [hn] at hs1; cases hs1
    obtain ⟨ms2, hs2, hsr⟩ := exec_shuf_recv (inv_init h0) hx hc hn0 hadd hh g0 hspec.2.2.2.2.2.1 (by omega)
    rw [hn] at hs2; cases hs2
    have := congrArg List.length hd1
    simp only [List.length_append] at this
    refine ⟨pk, hg1, by omega, ?_⟩
    intro f hf hfn
    have := hsr f hf hfn
    have := hg1.radd
    omega
  refine ⟨hc, ?_⟩
  refine (progress hcpu htc hoc hI hc (fun n ms hn => by obtain ⟨_, _, h, _⟩ := hfacts n ms hn; exact h) ?_).elim id
    (fun ⟨a, ha, hs⟩ => by rw [hstuck a ha] at hs; cases hs)
  · intro f hf
    -- the mix of a goroutine is known
    have hk : (s.states f.mix).isSome := by
      by_contra hne
      have hnone : s.states f.mix = none := by simpa using hne
      have : ∀ (as : List Action) (s : State), exec env s0 as = some s → s.crashed = false →
          ∀ f ∈ s.shufs, (s.states f.mix).isSome := by
        intro as
        induction as using List.reverseRecOn with
        | nil => intro s hx _ f hf; cases hx; rw [hspec.2.2.2.2.2.1] at hf; cases hf
        | append_singleton as a ih =>
          intro s hx hc f hf
          obtain ⟨s1, h1, h2⟩ := exec_snoc hx
          have hc1 := step_not_crashed h2
          have old := ih s1 h1 hc1
          have hR := stepR_of_step h2 hc
          have keep : ∀ n, (s1.states n).isSome → (s.states n).isSome := by
            intro n hn
            obtain ⟨m, hm⟩ := Option.isSome_iff_exists.1 hn
            obtain ⟨m', hm', _⟩ := stepR_mix hR hm
            rw [hm']; rfl
          apply keep
          cases hR with
          | @doneYes n rest ms h hm hd =>
            rcases List.mem_append.1 hf with hf | hf
            · exact old f hf
            · simp at hf; subst hf; simp [hm]
          | @again i words n ms hi hm hw ho =>
            have hf : _ ∈ (if ms.isLastLayer then s1.shufs.eraseIdx i else s1.shufs.set i ⟨n, true⟩) := hf
            split at hf
            · exact old f (List.mem_of_mem_eraseIdx hf)
            · rcases mem_of_mem_set hf with hf | hf
              · exact old f hf
              · subst hf; simp [hm]
          | @shuffle i words n ms out hi hm hw ho hout =>
            have hf : _ ∈ (if ms.isLastLayer then s1.shufs.eraseIdx i else s1.shufs.set i ⟨n, true⟩) := hf
            split at hf
            · exact old f (List.mem_of_mem_eraseIdx hf)
            · rcases mem_of_mem_set hf with hf | hf
              · exact old f hf
              · subst hf; simp [hm]
          | send hi hm hw hsw hcap => exact old f (List.mem_of_mem_eraseIdx hf)
          | _ => exact old f hf
      have := this acts s hx hc f hf
      rw [hnone] at this; cases this
    obtain ⟨ms, hn⟩ := Option.isSome_iff_exists.1 hk
    obtain ⟨pk, hgi, _, hfull⟩ := hfacts _ ms hn
    refine ⟨ms, hn, hfull f hf rfl, ?_⟩
    intro hp
    obtain ⟨n, p⟩ := f
    simp only at hp hn
    subst hp
    exact (hgi.passed hf).1

/-- In an idle state a fully delivered mix is shuffled. -/
theorem idle_done {env : Env} {topo : Topology} {mixes : List LogicalMix} {w : GoMap Str Int} {s0 s : State}
    {acts : List Action} (h0 : newMixers topo mixes w = .ok s0) (hnd : (mixes.map (·.name)).Nodup)
    {mix : LogicalMix} (hmix : mix ∈ mixes) {pk : Str × Str} (hpk : ExpectsOnly topo w mix pk)
    (hx : exec env s0 acts = some s) (hc : s.crashed = false) (hidle : Idle s)
    (hle : (delivered acts mix.name).length ≤ workloadOf w mix.name) (hpos : 0 < workloadOf w mix.name)
    (hfull : (deliveredFrom acts pk mix.name).length = workloadOf w mix.name) :
    ∃ out, getMixOutputs s mix.name = some (.ok out) := by
  have hspec := newMixers_spec h0
  have hh := hspec.2.2.2.2.1
  obtain ⟨ms0, hn0, hadd, hlen, g0, hr0, _⟩ := init_ginv h0 hnd hmix hpk
  obtain ⟨ms, hn, hl, _, hd, hg, hr⟩ := exec_ginv (inv_init h0) hx hc hn0 hadd hh g0
  have hI := exec_inv (inv_init h0) hx hc
  obtain ⟨i1, i2, i3, i4, i5⟩ := hidle
  have hrest : restFrom s pk mix.name = [] := by simp [restFrom, i1]
  rw [hrest, hr0, hfull] at hr
  simp at hr
  have hdl := congrArg List.length hd
  simp only [List.length_append] at hdl
  have hM := hI.mix _ ms hn
  have honce : ms.once = true := by
    rcases hg.done (by omega) (by omega) with ⟨ts, rest, hcur⟩ | hmem | ho
    · rw [i1] at hcur; cases hcur
    · rw [i4] at hmem; cases hmem
    · exact ho
  have hb := hM.body (by omega)
  have hP : pend s mix.name = [] := (hb.fin honce).1
  have hcnt := hb.cnt
  have hperm := (hb.fin honce).2.length_eq
  rw [hP] at hcnt
  simp at hcnt hperm
  have hsw := hM.sw.1
  rw [honce] at hsw
  simp only [if_true] at hsw
  refine ⟨ms.outputs, ?_⟩
  simp only [getMixOutputs, hc, hn, getOutputs, hsw]
  rw [show ms.wg = 0 by omega]
  simp

/-- A mix nobody addressed never starts its shuffle. -/
theorem untouched {env : Env} {s0 s : State} {as : List Action} {n : Str} (hx : exec env s0 as = some s)
    (hc : s.crashed = false) (hh : s0.holder = none) (hsh : s0.shufs = [])
    (hP : CallsAll (fun m => m.logicalReceiver ≠ n) as) {ms0 : MixState} (hn0 : s0.states n = some ms0) (ho : ms0.once = false) :
    (∀ f ∈ s.shufs, f.mix ≠ n) ∧ ¬ curIs s n ∧ ∃ ms, s.states n = some ms ∧ ms.once = false := by
  induction as using List.reverseRecOn generalizing s with
  | nil => cases hx; exact ⟨by simp [hsh], (by rintro ⟨_, _, h⟩; rw [hh] at h; cases h), ms0, hn0, ho⟩
  | append_singleton as a ih =>
    obtain ⟨s1, h1, h2⟩ := exec_snoc hx
    have hc1 := step_not_crashed h2
    obtain ⟨hs, hcur, ms, hn, hno⟩ := ih h1 hc1 hP.snoc.1
    have hrest := exec_rest h1 hc1 hh hP.snoc.1
    have hR := stepR_of_step h2 hc
    have hset : ∀ {f : Shuf} {i n0} {l : Bool}, s1.shufs[i]? = some ⟨n0, false⟩ →
        f ∈ (if l then s1.shufs.eraseIdx i else s1.shufs.set i ⟨n0, true⟩) → f.mix ≠ n := by
      intro f i n0 l hi hm
      split at hm
      · exact hs f (List.mem_of_mem_eraseIdx hm)
      · rcases mem_of_mem_set hm with hm | hm
        · exact hs f hm
        · subst hm; exact hs ⟨n0, false⟩ (List.mem_of_getElem? hi)
    cases hR with
    | call h => exact ⟨hs, (by rintro ⟨_, _, h⟩; cases h), ms, hn, hno⟩
    | release h => exact ⟨hs, (by rintro ⟨_, _, h⟩; cases h), ms, hn, hno⟩
    | @handle m rest msr h hm =>
      have hne := hrest _ h m (by simp)
      refine ⟨hs, ?_, ms, ?_, hno⟩
      · rintro ⟨_, _, hh'⟩
        simp only [Option.some.injEq, AddOp.mk.injEq, Prod.mk.injEq] at hh'
        exact hne hh'.1.1
      · simp [State.set, Ne.symm hne, hn]
    | push h hcl hq =>
      refine ⟨hs, ?_, ms, hn, hno⟩
      rintro ⟨_, _, hh'⟩
      cases hh'
      exact hcur ⟨_, _, h⟩
    | @doneYes n0 rest msr h hm hd =>
      refine ⟨?_, (by rintro ⟨_, _, h⟩; cases h), ms, hn, hno⟩
      intro f hf
      rcases List.mem_append.1 hf with hf | hf
      · exact hs f hf
      · simp at hf; subst hf
        intro he
        have he : n0 = n := he
        subst he
        exact hcur ⟨_, _, h⟩
    | doneNo h hm hd => exact ⟨hs, (by rintro ⟨_, _, h⟩; cases h), ms, hn, hno⟩
    | take hq hb => exact ⟨hs, hcur, ms, hn, hno⟩
    | @finish i t msr ht hd hm h0 h1 hw =>
      refine ⟨hs, hcur, ?_⟩
      by_cases he : n = t.mix
      · subst he; rw [hm] at hn; cases hn
        exact ⟨_, set_states_self _ _ _, hno⟩
      · exact ⟨ms, by simp [State.set, he, hn], hno⟩
    | again hi hm hw ho' => exact ⟨fun f hf => hset hi hf, hcur, ms, hn, hno⟩
    | @shuffle i words n0 msr out hi hm hw ho' hout =>
      have hne : n0 ≠ n := hs _ (List.mem_of_getElem? hi)
      exact ⟨fun f hf => hset hi hf, hcur, ms, by simp [State.set, Ne.symm hne, hn], hno⟩
    | send hi hm hw hsw hcap => exact ⟨fun f hf => hs f (List.mem_of_mem_eraseIdx hf), hcur, ms, hn, hno⟩
    | recv hq => exact ⟨hs, hcur, ms, hn, hno⟩
    | close hcl => exact ⟨hs, hcur, ms, hn, hno⟩

end Resmix.Mixer
