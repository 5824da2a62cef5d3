import Verif.Props.Mixer
set_option autoImplicit false
/-
Facts about one round object used for the whole system (C64): what it put on its output channel.
-/
namespace Resmix.Mixer

/-- The onions of the batches of mix `n`. -/
def onionsOf (bs : List MixOutput) (n : Str) : List Bytes := (bs.filter fun b => b.logicalSender = n).flatMap (·.onions)

theorem onionsOf_append (a b : List MixOutput) (n : Str) : onionsOf (a ++ b) n = onionsOf a n ++ onionsOf b n := by
  simp [onionsOf]

/-- What a caller of AddMessages handed over in one step. -/
def callOf : Action → List Messages
  | .call ms => ms
  | _ => []

theorem delivered_eq (acts : List Action) (n : Str) : delivered acts n = onionsFor n (acts.flatMap callOf) := by
  induction acts with
  | nil => rfl
  | cons a acts ih =>
    have : delivered (a :: acts) n = deliveredBy a n ++ delivered acts n := rfl
    rw [this, ih]
    cases a <;> simp [deliveredBy, onionsFor, callOf]

theorem step_output {env : Env} {s s' : State} {a : Action} (hs : step env s a = some s') :
    (a ≠ .recv → ∃ extra, s'.output = s.output ++ extra ∧ s'.sent = s.sent ++ extra ∧ (s'.crashed = true → extra = [])) ∧
    (a = .recv → ∃ b q, s.output = b :: q ∧ s' = { s with output := q }) := by
  unfold step at hs
  split at hs
  · cases hs
  · cases a with
    | call ms =>
      simp only at hs; split at hs <;> cases hs
      exact ⟨fun _ => ⟨[], by simp, by simp, by simp⟩, nofun⟩
    | addStep =>
      refine ⟨fun _ => ⟨[], ?_⟩, nofun⟩
      simp only [addStep] at hs
      repeat' split at hs
      all_goals first | cases hs | (simp only [Option.some.injEq] at hs; subst hs)
      all_goals simp [State.crash, State.set]
    | take =>
      refine ⟨fun _ => ⟨[], ?_⟩, nofun⟩
      simp only at hs
      repeat' split at hs
      all_goals first | cases hs | (simp only [Option.some.injEq] at hs; subst hs)
      all_goals simp [State.crash, State.set]
    | finish i =>
      refine ⟨fun _ => ⟨[], ?_⟩, nofun⟩
      simp only at hs
      split at hs
      · cases hs
      · simp only [Option.some.injEq] at hs
        subst hs
        unfold finishTask
        repeat' split
        all_goals simp [State.crash, State.set]
    | shuffle i ws =>
      refine ⟨fun _ => ⟨[], ?_⟩, nofun⟩
      simp only [shuffleStep] at hs
      repeat' split at hs
      all_goals first | cases hs | (simp only [Option.some.injEq] at hs; subst hs)
      all_goals simp [State.crash, State.set]
    | send i =>
      refine ⟨fun _ => ?_, nofun⟩
      simp only [sendStep] at hs
      repeat' split at hs
      all_goals first | cases hs | (simp only [Option.some.injEq] at hs; subst hs)
      all_goals first | exact ⟨_, rfl, rfl, by simp_all⟩
    | recv =>
      refine ⟨fun h => absurd rfl h, fun _ => ?_⟩
      simp only at hs
      split at hs
      · cases hs
      · next b q hq => cases hs; exact ⟨b, q, hq, rfl⟩
    | close =>
      refine ⟨fun _ => ⟨[], ?_⟩, nofun⟩
      simp only at hs
      split at hs <;> cases hs <;> simp [State.crash]

theorem exec_sent_known {env : Env} {s0 s : State} {acts : List Action} (hx : exec env s0 acts = some s) (hc : s.crashed = false)
    (hse : s0.sent = []) : ∀ b ∈ s.sent, ∃ ms, s.states b.logicalSender = some ms ∧ b.onions.length = ms.outputs.length := by
  induction acts using List.reverseRecOn generalizing s with
  | nil => cases hx; simp [hse]
  | append_singleton acts a ih =>
    obtain ⟨s1, h1, h2⟩ := exec_snoc hx
    have ih := ih h1 (step_not_crashed h2)
    have hr := stepR_of_step h2 hc
    intro b hb
    have key : b ∈ s1.sent ∨ ∃ ms, s1.states b.logicalSender = some ms ∧ b.onions.length = ms.outputs.length := by
      cases hr
      case send i n ms hi hm hw hsw hcap =>
        simp only [List.mem_append, List.mem_singleton] at hb
        rcases hb with hb | rfl
        · exact .inl hb
        · exact .inr ⟨ms, hm, rfl⟩
      all_goals exact .inl (by simpa [State.set] using hb)
    have : ∃ ms, s1.states b.logicalSender = some ms ∧ b.onions.length = ms.outputs.length := by
      rcases key with h | h
      · exact ih b h
      · exact h
    obtain ⟨ms, hms, hl⟩ := this
    obtain ⟨ms', h3, h4, _⟩ := stepR_mix hr hms
    exact ⟨ms', h3, by rw [hl, h4]⟩

/-- The onions a mix of the round object has forwarded, when at most the onions `X` were delivered to it. -/
theorem sent_bound {env : Env} {topo : Topology} {mixes : List LogicalMix} {w : GoMap Str Int}
    {s0 s : State} {acts : List Action} (h0 : newMixers topo mixes w = .ok s0) (hnd : (mixes.map (·.name)).Nodup)
    (hx : exec env s0 acts = some s) (hc : s.crashed = false) {mix : LogicalMix} (hmix : mix ∈ mixes)
    {pk : Str × Str} (hpk : ExpectsOnly topo w mix pk) {X : List Bytes} (hX : workloadOf w mix.name = X.length)
    (hle : (delivered acts mix.name).Subperm X) (hne : X ≠ [] → NoEmptyBatch acts mix.name) :
    (mix.layer + 1 = topo.layers.length → onionsOf s.sent mix.name = []) ∧
    (onionsOf s.sent mix.name).Subperm (X.map (resultOf env)) := by
  obtain ⟨_, hlast, hin⟩ := C10_forwards_once_partial h0 hnd hx hc hmix hpk
  have hlast' : mix.layer + 1 = topo.layers.length → onionsOf s.sent mix.name = [] := by
    intro h
    have := hlast h
    simp only [onionsOf]
    rw [List.filter_eq_nil_iff.2 (fun b hb => by simpa using this b hb)]
    rfl
  refine ⟨hlast', ?_⟩
  by_cases hl : mix.layer + 1 = topo.layers.length
  · rw [hlast' hl]; exact List.nil_subperm
  · have hlen : (delivered acts mix.name).length ≤ workloadOf w mix.name := by rw [hX]; exact hle.length_le
    by_cases hxe : X = []
    · have : onionsOf s.sent mix.name = [] := by
        simp only [onionsOf, List.flatMap_eq_nil_iff, List.mem_filter, decide_eq_true_eq]
        rintro b ⟨hb, hbn⟩
        obtain ⟨ms, h1, h2⟩ := exec_sent_known hx hc (newMixers_spec h0).2.2.2.2.2.2.2.2.2 b hb
        obtain ⟨ms0, h3, h4, _⟩ := exec_some hx hc (init_added h0) (newMixers_spec h0).2.2.2.2.1 h1
        rw [h4, init_len h0 _ _ h3, hbn, hX, hxe] at h2
        exact List.length_eq_zero_iff.1 h2
      rw [this]; exact List.nil_subperm
    · have hpos : 0 < workloadOf w mix.name := by rw [hX]; exact List.length_pos_iff.2 hxe
      obtain ⟨hone, hget, _⟩ := hin hl (hne hxe) hpos hlen
      match hf : s.sent.filter fun b => b.logicalSender = mix.name with
      | [] => simp [onionsOf, hf]
      | [b] =>
        have hb : b ∈ s.sent ∧ b.logicalSender = mix.name := by
          have : b ∈ s.sent.filter fun b => b.logicalSender = mix.name := by rw [hf]; simp
          simpa using this
        obtain ⟨_, _, _, _, _, _, _, _, hfull, hp⟩ := outputs_of_get h0 hx hlen (hget b hb.1 hb.2)
        have hpx : (delivered acts mix.name).Perm X := hle.perm_of_length_le (by rw [hfull, hX])
        simp only [onionsOf, hf, List.flatMap_cons, List.flatMap_nil, List.append_nil]
        exact (hp.trans (hpx.map _)).subperm
      | b :: b' :: rest => rw [hf] at hone; simp at hone

end Resmix.Mixer
