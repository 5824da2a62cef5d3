import Verif.Spec.Hide
import Verif.Proofs.MixerE
set_option autoImplicit false
/-
Anonymity of one round object: a run with exchanged contents.
-/
namespace Resmix.Shuffle

/-- Every rearrangement of a list is an index permutation applied to it. -/
theorem exists_index_perm {α : Type} {inp out : List α} (h : out.Perm inp) :
    ∃ p : List Nat, p.Perm (List.range inp.length) ∧ p.map (fun i => inp[i]?) = out.map some := by
  have hf : List.Forall₂ (fun x i => inp[i]? = some x) inp (List.range inp.length) := by
    rw [List.forall₂_iff_get]
    refine ⟨by simp, fun i h1 h2 => ?_⟩
    simp only [List.get_eq_getElem, List.getElem_range]
    exact List.getElem?_eq_getElem h1
  obtain ⟨p, h1, h2⟩ := List.perm_comp_forall₂ h hf
  refine ⟨p, h2, ?_⟩
  clear h2 hf h
  induction h1 with
  | nil => rfl
  | cons h _ ih => simp [h, ih]

/-- Every order can come out of the shuffle. -/
theorem shuffle_reach {α : Type} {inp out : List α} (h : out.Perm inp) (hn : inp.length ≤ 2 ^ 32) :
    ∃ words shf, shuffleOnions (newShuffler scripted words) inp = .ok (out, shf) := by
  obtain ⟨p, hp, hm⟩ := exists_index_perm h
  obtain ⟨words, hw⟩ : ∃ words, permutation scripted words inp.length = .ok (p, []) := by
    obtain ⟨js, ⟨hv, hl⟩, -⟩ := pureLoop_bij inp.length (List.range inp.length) p (by simp) List.nodup_range hp (by
      have h1 : p.length = inp.length := by simpa using hp.length_eq
      rw [List.drop_eq_nil_of_le (by omega), List.drop_eq_nil_of_le (by simp)])
    refine ⟨js.map be32, ?_⟩
    have := permLoop_scripted inp.length (js.map be32) (List.range inp.length) (by simp [hv.1]) (by
      intro w hw; obtain ⟨a, _, rfl⟩ := List.mem_map.1 hw; rfl) (by simp) js hv.1 (by
      intro k hk
      have hk' : k < js.length := by rw [hv.1]; exact hk
      have := hv.2 k hk'
      simp only [List.getElem_map]
      rw [beNat_be32 _ (by omega), Nat.mod_eq_of_lt this])
    unfold permutation
    rw [this, hl]
  refine ⟨words, ⟨some p, []⟩, ?_⟩
  obtain ⟨out', h1, h2, h3⟩ := applyPerm_eq p inp hp
  rw [hm] at h3
  have h4 : out' = out := (List.map_injective_iff.2 (Option.some_injective _) h3).symm
  subst h4
  unfold shuffleOnions needsPerm newShuffler
  simp only [if_true, hw, bind, Except.bind, h1]

end Resmix.Shuffle

namespace Resmix.Mixer

/-- The same mix, except for outputs that nobody has seen yet. -/
def LikeMix (ms ms' : MixState) : Prop := ∃ outs, ms' = { ms with outputs := outs } ∧ outs.length = ms.outputs.length ∧ (ms.once = true → outs = ms.outputs)

/-- The same round object, except for outputs that nobody has seen yet. -/
structure Like (s s' : State) : Prop where
  states : ∀ n, (s.states n = none ∧ s'.states n = none) ∨ ∃ ms ms', s.states n = some ms ∧ s'.states n = some ms' ∧ LikeMix ms ms'
  queue : s'.queue = s.queue
  busy : s'.busy = s.busy
  holder : s'.holder = s.holder
  shufs : s'.shufs = s.shufs
  output : s'.output = s.output
  closed : s'.closed = s.closed
  crashed : s'.crashed = s.crashed
  sent : s'.sent = s.sent

theorem LikeMix.refl (ms : MixState) : LikeMix ms ms := ⟨ms.outputs, rfl, rfl, fun _ => rfl⟩

theorem Like.refl (s : State) : Like s s where
  states := fun n => by
    cases h : s.states n with
    | none => exact .inl ⟨rfl, rfl⟩
    | some ms => exact .inr ⟨ms, ms, rfl, rfl, .refl ms⟩
  queue := rfl
  busy := rfl
  holder := rfl
  shufs := rfl
  output := rfl
  closed := rfl
  crashed := rfl
  sent := rfl

theorem Like.get {s s' : State} (h : Like s s') {n : Str} {ms : MixState} (hn : s.states n = some ms) : ∃ ms', s'.states n = some ms' ∧ LikeMix ms ms' := by
  rcases h.states n with ⟨h1, -⟩ | ⟨m, m', h1, h2, h3⟩
  · rw [hn] at h1; cases h1
  · rw [hn] at h1; cases h1; exact ⟨m', h2, h3⟩

/-- Changing one mix on both sides. -/
theorem Like.states_set {s s' : State} (h : Like s s') {n : Str} {ms ms' : MixState} (hm : LikeMix ms ms') (k : Str) :
    ((s.set n ms).states k = none ∧ (s'.set n ms').states k = none) ∨
      ∃ m m', (s.set n ms).states k = some m ∧ (s'.set n ms').states k = some m' ∧ LikeMix m m' := by
  by_cases hk : k = n
  · exact .inr ⟨ms, ms', by simp [State.set, hk], by simp [State.set, hk], hm⟩
  · simpa [State.set, hk] using h.states k

theorem isDone_like {ms : MixState} {outs : List Bytes} : isDone { ms with outputs := outs } = isDone ms := rfl

theorem answers_like {env : Env} {s s' : State} (h : Like s s') (hI : Inv env s) (n : Str) : getMixOutputs s' n = getMixOutputs s n := by
  unfold getMixOutputs
  rw [h.crashed]
  rcases h.states n with ⟨h1, h2⟩ | ⟨m, m', h1, h2, outs, rfl, h4, h5⟩
  · rw [h1, h2]
  · rw [h1, h2]
    have hsw := (hI.mix n m h1).sw.1
    simp only [getOutputs]
    by_cases ho : m.once = true
    · rw [h5 ho]
    · have : ¬ (m.wg = 0 ∧ m.shuffleWait = 0) := by rw [hsw]; simp [ho]
      simp [this]

theorem looksSame_of_like {env : Env} {s s' : State} (h : Like s s') (hI : Inv env s) : LooksSame s s' :=
  ⟨h.sent, h.output, answers_like h hI, h.crashed, h.queue, h.busy, h.holder, h.shufs, h.closed⟩

/-- One step, followed in the round object with exchanged contents. -/
theorem like_step {env env' : Env} {s s' s1 : State} {a : Action} (h : Like s s') (hI : Inv env s) (hc' : s'.crashed = false) (hst : StepR env s a s1)
    (e1 : env'.nCPU = env.nCPU) (e2 : env'.taskCap = env.taskCap) (e3 : env'.outCap = env.outCap)
    (hfin : ∀ t ∈ s.busy, env.decrypt t.input ≠ .error .panic → env'.decrypt t.input ≠ .error .panic) (hun : ∀ t ∈ s.busy, ∀ ms, s.states t.mix = some ms → ms.once = false)
    (hsh : ∀ n ms ms', s.states n = some ms → s'.states n = some ms' → ms.wg = 0 → ms.once = false → ms.outputs.Perm ms'.outputs ∧ ms.outputs.length ≤ 2 ^ 32) :
    ∃ a' s1', SameButWords a a' ∧ step env' s' a' = some s1' ∧ Like s1 s1' := by
  have hcr : s.crashed = false := by rw [← h.crashed]; exact hc'
  have hget := fun n ms => h.get (n := n) (ms := ms)
  have hset := fun n ms ms' hm k => h.states_set (n := n) (ms := ms) (ms' := ms') hm k
  obtain ⟨ss, q, b, ho, sh, o, cl, cr, se⟩ := s
  obtain ⟨ss', q', b', ho', sh', o', cl', cr', se'⟩ := s'
  obtain ⟨hs, h2, h3, h4, h5, h6, h7, h8, h9⟩ := h
  dsimp only at hcr h2 h3 h4 h5 h6 h7 h8 h9 hs
  subst hcr h2 h3 h4 h5 h6 h7 h8 h9
  cases hst with
  | call h1 =>
    dsimp only at h1
    refine ⟨_, _, .same _, by simp [step, h1]; rfl, ?_⟩
    exact ⟨hs, rfl, rfl, rfl, rfl, rfl, rfl, rfl, rfl⟩
  | release h1 =>
    dsimp only at h1
    refine ⟨_, _, .same _, by simp [step, addStep, h1]; rfl, ?_⟩
    exact ⟨hs, rfl, rfl, rfl, rfl, rfl, rfl, rfl, rfl⟩
  | @handle m rest ms h1 hm =>
    obtain ⟨ms', hm', outs, rfl, h4, h5⟩ := hget _ _ hm
    dsimp only at h1 hm hm'
    refine ⟨_, _, .same _, by simp only [step, addStep, h1, hm', Bool.false_eq_true, if_false]; rfl, ?_⟩
    refine ⟨?_, rfl, rfl, rfl, rfl, rfl, rfl, rfl, rfl⟩
    exact hset _ _ _ ⟨outs, rfl, h4, h5⟩
  | push h1 h2 h3 =>
    dsimp only at h1 h2 h3
    subst h2
    refine ⟨_, _, .same _, by simp [step, addStep, h1, e2, h3]; rfl, ?_⟩
    exact ⟨hs, rfl, rfl, rfl, rfl, rfl, rfl, rfl, rfl⟩
  | @doneYes n rest ms h1 hm hd =>
    obtain ⟨ms', hm', outs, rfl, h4, h5⟩ := hget _ _ hm
    dsimp only at h1 hm hm'
    refine ⟨_, _, .same _, by simp [step, addStep, h1, hm', isDone_like, hd]; rfl, ?_⟩
    exact ⟨hs, rfl, rfl, rfl, rfl, rfl, rfl, rfl, rfl⟩
  | @doneNo n rest ms h1 hm hd =>
    obtain ⟨ms', hm', outs, rfl, h4, h5⟩ := hget _ _ hm
    dsimp only at h1 hm hm'
    refine ⟨_, _, .same _, by simp [step, addStep, h1, hm', isDone_like, hd]; rfl, ?_⟩
    exact ⟨hs, rfl, rfl, rfl, rfl, rfl, rfl, rfl, rfl⟩
  | take h1 h2 =>
    dsimp only at h1 h2
    refine ⟨_, _, .same _, by simp [step, h1, e1, h2]; rfl, ?_⟩
    exact ⟨hs, rfl, rfl, rfl, rfl, rfl, rfl, rfl, rfl⟩
  | @finish i t ms ht hd hm h0 h1 hw =>
    obtain ⟨ms', hm', outs, rfl, h4, h5⟩ := hget _ _ hm
    dsimp only at ht hm hm' h1 hfin hun
    have hmem := List.mem_of_getElem? ht
    have hon := hun t hmem ms hm
    have hd' := hfin t hmem hd
    refine ⟨.finish i, State.set ⟨ss', q', b'.eraseIdx i, ho', sh', o', cl', false, se'⟩ t.mix
        { ms with outputs := outs.set t.idx.toNat (resultOf env' t.input), wg := ms.wg - 1 }, .same _, ?_, ?_, rfl, rfl, rfl, rfl, rfl, rfl, rfl, rfl⟩
    · have e : finishTask env' ⟨ss', q', b'.eraseIdx i, ho', sh', o', cl', false, se'⟩ t =
          State.set ⟨ss', q', b'.eraseIdx i, ho', sh', o', cl', false, se'⟩ t.mix
            { ms with outputs := outs.set t.idx.toNat (resultOf env' t.input), wg := ms.wg - 1 } := by
        unfold finishTask
        split
        · next hp => exact absurd hp hd'
        · simp only [hm']
          rw [if_pos ⟨h0, by rw [h4]; exact h1⟩, if_neg (by omega)]
      simp only [step, ht, Bool.false_eq_true, if_false, e]
    · exact hset _ _ _ ⟨_, rfl, by simp [h4], fun hh => by simp [hon] at hh⟩
  | @again i words n ms hi hm hw hon =>
    obtain ⟨ms', hm', outs, rfl, h4, h5⟩ := hget _ _ hm
    dsimp only at hi hm hm'
    refine ⟨.shuffle i words, _, .same _, by simp only [step, shuffleStep, hi, hm', hw, hon, Bool.false_eq_true, if_false, if_true]; rfl, ?_⟩
    exact ⟨hs, rfl, rfl, rfl, rfl, rfl, rfl, rfl, rfl⟩
  | @shuffle i words n ms out hi hm hw hon hout =>
    obtain ⟨ms', hm', outs, rfl, h4, h5⟩ := hget _ _ hm
    obtain ⟨hp, hl⟩ := hsh n ms _ hm hm' hw hon
    obtain ⟨words', shf, hsf⟩ := Shuffle.shuffle_reach (hout.trans hp) (by rw [h4]; exact hl)
    dsimp only at hi hm hm'
    refine ⟨.shuffle i words', _, .words i words words', by simp only [step, shuffleStep, hi, hm', hw, hon, hsf, Bool.false_eq_true, if_false, if_true]; rfl, ?_⟩
    refine ⟨?_, rfl, rfl, rfl, rfl, rfl, rfl, rfl, rfl⟩
    exact hset _ _ _ ⟨out, by simp [hw], rfl, fun _ => rfl⟩
  | @send i n ms hi hm hw hsw hcap =>
    obtain ⟨ms', hm', outs, rfl, h4, h5⟩ := hget _ _ hm
    have hsw' := (hI.mix n ms hm).sw.1
    have hon : ms.once = true := by
      by_contra hne
      rw [hsw] at hsw'
      simp [hne] at hsw'
    have := h5 hon
    subst this
    dsimp only at hi hm hm' hcap
    refine ⟨.send i, _, .same _, by simp [step, sendStep, hi, hm', getOutputs, hw, hsw, e3, hcap]; rfl, ?_⟩
    exact ⟨hs, rfl, rfl, rfl, rfl, rfl, rfl, rfl, rfl⟩
  | recv h1 =>
    dsimp only at h1
    refine ⟨_, _, .same _, by simp [step, h1]; rfl, ?_⟩
    exact ⟨hs, rfl, rfl, rfl, rfl, rfl, rfl, rfl, rfl⟩
  | close h1 =>
    dsimp only at h1
    subst h1
    refine ⟨_, _, .same _, by simp [step]; rfl, ?_⟩
    exact ⟨hs, rfl, rfl, rfl, rfl, rfl, rfl, rfl, rfl⟩

/-- The same round object after a crash. -/
structure LikeDead (s s' : State) : Prop where
  queue : s'.queue = s.queue
  busy : s'.busy = s.busy
  holder : s'.holder = s.holder
  shufs : s'.shufs = s.shufs
  output : s'.output = s.output
  closed : s'.closed = s.closed
  sent : s'.sent = s.sent
  crashed : s.crashed = true ∧ s'.crashed = true

theorem looksSame_of_dead {s s' : State} (h : LikeDead s s') : LooksSame s s' :=
  ⟨h.sent, h.output, fun n => by simp [getMixOutputs, h.crashed.1, h.crashed.2], by rw [h.crashed.1, h.crashed.2], h.queue, h.busy, h.holder, h.shufs, h.closed⟩

/-- A crash is followed too. -/
theorem dead_step {env env' : Env} {s s' s1 : State} {a : Action} (h : Like s s') (hst : step env s a = some s1) (hd : s1.crashed = true)
    (hpan : ∀ t ∈ s.busy, env'.decrypt t.input = .error .panic ↔ env.decrypt t.input = .error .panic) :
    ∃ s1', step env' s' a = some s1' ∧ LikeDead s1 s1' := by
  have hcr := step_not_crashed hst
  have hget := fun n ms => h.get (n := n) (ms := ms)
  obtain ⟨ss, q, b, ho, sh, o, cl, cr, se⟩ := s
  obtain ⟨ss', q', b', ho', sh', o', cl', cr', se'⟩ := s'
  obtain ⟨hs, h2, h3, h4, h5, h6, h7, h8, h9⟩ := h
  dsimp only at hcr h2 h3 h4 h5 h6 h7 h8 h9 hs hpan
  subst hcr h2 h3 h4 h5 h6 h7 h8 h9
  have hnone : ∀ n, ss n = none → ss' n = none := fun n hn => by
    rcases hs n with h | ⟨m, m', h1, _⟩
    · exact h.2
    · rw [hn] at h1; cases h1
  unfold step at hst ⊢
  simp only [Bool.false_eq_true, if_false] at hst ⊢
  cases a with
  | call ms =>
    simp only at hst
    split at hst
    · cases hst
    · cases hst; cases hd
  | addStep =>
    simp only [addStep] at hst ⊢
    split at hst
    · cases hst
    · cases hst; cases hd
    · split at hst
      · next hn =>
        cases hst
        simp only [hnone _ hn]
        exact ⟨_, rfl, rfl, rfl, rfl, rfl, rfl, rfl, rfl, rfl, rfl⟩
      · cases hst; cases hd
    · split at hst
      · cases hst
        next hcl =>
        simp only [hcl, if_true]
        exact ⟨_, rfl, rfl, rfl, rfl, rfl, rfl, rfl, rfl, rfl, rfl⟩
      · split at hst <;> cases hst; cases hd
    · split at hst
      · cases hst
      · split at hst <;> cases hst <;> cases hd
  | take =>
    simp only at hst
    split at hst
    · cases hst
    · split at hst <;> cases hst; cases hd
  | finish i =>
    simp only at hst ⊢
    split at hst
    · cases hst
    · next t ht =>
      cases hst
      have hp := hpan t (List.mem_of_getElem? ht)
      refine ⟨_, rfl, ?_⟩
      unfold finishTask at hd ⊢
      split at hd
      · next he =>
        rw [hp.2 he]
        exact ⟨rfl, rfl, rfl, rfl, rfl, rfl, rfl, rfl, rfl⟩
      · next he =>
        have he' : env'.decrypt t.input ≠ .error .panic := fun e => he (hp.1 e)
        split at hd
        · next hn =>
          dsimp only at hn
          split
          · next h => exact absurd h he'
          · simp only [hnone _ hn]
            exact ⟨rfl, rfl, rfl, rfl, rfl, rfl, rfl, rfl, rfl⟩
        · next ms hn =>
          obtain ⟨ms', hm', outs, rfl, h4, h5⟩ := hget _ _ hn
          dsimp only at hn hm'
          split at hd
          · next hi =>
            split at hd
            · next hw =>
              rw [if_pos hi, if_pos hw]
              split
              · next h => exact absurd h he'
              · simp only [hm', h4]
                rw [if_pos hi, if_pos hw]
                exact ⟨rfl, rfl, rfl, rfl, rfl, rfl, rfl, rfl, rfl⟩
            · cases hd
          · next hi =>
            rw [if_neg hi]
            split
            · next h => exact absurd h he'
            · simp only [hm', h4]
              rw [if_neg hi]
              exact ⟨rfl, rfl, rfl, rfl, rfl, rfl, rfl, rfl, rfl⟩
  | shuffle i words =>
    simp only [shuffleStep] at hst
    split at hst
    · split at hst
      · cases hst
      · split at hst
        · split at hst
          · cases hst; cases hd
          · next ms _ _ _ =>
            obtain ⟨out, shf, hok, -⟩ := shuffle_ok words ms.outputs
            rw [hok] at hst
            cases hst; cases hd
        · cases hst
    · cases hst
  | send i =>
    simp only [sendStep] at hst
    split at hst
    · split at hst
      · cases hst
      · split at hst
        · cases hst
        · split at hst <;> cases hst; cases hd
    · cases hst
  | recv =>
    simp only at hst
    split at hst <;> cases hst; cases hd
  | close =>
    simp only at hst ⊢
    split at hst
    · next hcl =>
      cases hst
      simp only [hcl, if_true]
      exact ⟨_, rfl, rfl, rfl, rfl, rfl, rfl, rfl, rfl, rfl, rfl⟩
    · cases hst; cases hd

theorem opened_eq (env : Env) : opened env = resultOf env := rfl

theorem busy_pend {s : State} {t : Task} (h : t ∈ s.busy) : t ∈ pend s t.mix := by
  simp [pend, tasks, h]

/-- What a state must satisfy for its next step to be followed under another key: nothing was over-delivered, the same onions are unparsable, and the
contents of a mix that received everything are the same up to their order. -/
def Ready (env env' : Env) (s : State) : Prop :=
  ∀ n ms, s.states n = some ms → ms.added.length ≤ ms.outputs.length ∧
    (∀ o ∈ ms.added, env'.decrypt o = .error .panic ↔ env.decrypt o = .error .panic) ∧
    (ms.added.length = ms.outputs.length → (ms.added.map (opened env')).Perm (ms.added.map (opened env)) ∧ ms.outputs.length ≤ 2 ^ 32)

/-- One step of a live round object, crashing or not. -/
theorem like_next {env env' : Env} {s s' s1 : State} {a : Action} (hl : Like s s') (hI : Inv env s) (hI' : Inv env' s') (hR : Ready env env' s)
    (e1 : env'.nCPU = env.nCPU) (e2 : env'.taskCap = env.taskCap) (e3 : env'.outCap = env.outCap) (h2 : step env s a = some s1) :
    ∃ a' s1', SameButWords a a' ∧ step env' s' a' = some s1' ∧ (s1.crashed = false → Like s1 s1' ∧ Inv env s1 ∧ Inv env' s1') ∧
      (s1.crashed = true → LikeDead s1 s1') := by
  have hc := step_not_crashed h2
  have hc' : s'.crashed = false := by rw [hl.crashed]; exact hc
  have hbusy : ∀ t ∈ s.busy, ∃ ms, s.states t.mix = some ms ∧ t.input ∈ ms.added ∧ ms.once = false := by
    intro t ht
    obtain ⟨ms, hn⟩ := Option.isSome_iff_exists.1 (hI.known t (by simp [tasks, ht]))
    have hb := (hI.mix _ ms hn).body (hR _ _ hn).1
    obtain ⟨k, hk, -⟩ := hb.src t (busy_pend ht)
    refine ⟨ms, hn, List.mem_of_getElem? hk, ?_⟩
    by_contra hon
    have := (hb.fin (by simpa using hon)).1
    have h3 := busy_pend ht
    rw [this] at h3
    simp at h3
  have hpan : ∀ t ∈ s.busy, env'.decrypt t.input = .error .panic ↔ env.decrypt t.input = .error .panic := by
    intro t ht
    obtain ⟨ms, hn, hm, _⟩ := hbusy t ht
    exact (hR _ _ hn).2.1 _ hm
  cases hc1 : s1.crashed with
  | true =>
    obtain ⟨s1', h3, h4⟩ := dead_step (env' := env') hl h2 hc1 hpan
    exact ⟨a, s1', .same a, h3, by simp, fun _ => h4⟩
  | false =>
    have hst := stepR_of_step h2 hc1
    obtain ⟨a', s1', h3, h4, h5⟩ := like_step (env' := env') hl hI hc' hst e1 e2 e3
      (fun t ht hd hd' => hd ((hpan t ht).1 hd'))
      (fun t ht ms hn => by
        obtain ⟨ms2, hn2, _, h⟩ := hbusy t ht
        rw [hn] at hn2; cases hn2; exact h)
      (fun n ms ms' hn hn' hw hon => by
        obtain ⟨ms2, hn2, outs, rfl, ho1, ho2⟩ := hl.get hn
        rw [hn'] at hn2; cases hn2
        obtain ⟨hal, _, hper⟩ := hR n ms hn
        have hb := (hI.mix _ ms hn).body hal
        have hb' := (hI'.mix _ _ hn').body (by dsimp only; omega)
        obtain ⟨hP, e1⟩ := hb.outputs_eq hon hal hw
        obtain ⟨hP', e2⟩ := hb'.outputs_eq hon (by dsimp only; omega) hw
        dsimp only at e2
        have hcnt := hb.cnt
        rw [hP, hw] at hcnt
        simp only [List.length_nil] at hcnt
        obtain ⟨h6, h7⟩ := hper (by omega)
        rw [opened_eq, opened_eq] at h6
        refine ⟨?_, h7⟩
        rw [e1, e2]
        exact ((List.reverse_perm _).trans h6.symm).trans (List.reverse_perm _).symm)
    exact ⟨a', s1', h3, h4, fun _ => ⟨h5, hI.step h2 hc1, hI'.step h4 (by rw [h5.crashed]; exact hc1)⟩, by simp⟩

/-- A whole execution, followed in the round object with exchanged contents. -/
theorem like_exec {env env' : Env} {topo : Topology} {mixes : List LogicalMix} {w : GoMap Str Int} {s0 s : State} {acts : List Action}
    (h0 : newMixers topo mixes w = .ok s0) (hx : exec env s0 acts = some s) (hle : ∀ n, (delivered acts n).length ≤ workloadOf w n)
    (hsz : ∀ n, workloadOf w n ≤ 2 ^ 32) (he : Exchanged env env' w acts) :
    ∃ acts', List.Forall₂ SameButWords acts acts' ∧
      (∀ k sk, exec env s0 (acts.take k) = some sk → ∃ sk', exec env' s0 (acts'.take k) = some sk' ∧ LooksSame sk sk') ∧
      ∃ s', exec env' s0 acts' = some s' ∧ (s.crashed = false → Like s s') ∧ (s.crashed = true → LikeDead s s') := by
  obtain ⟨hnew, -, -, -, hh0, -, -, -, hcr0, -⟩ := newMixers_spec h0
  have hlen0 : ∀ n ms, s0.states n = some ms → ms.outputs.length = workloadOf w n := by
    intro n ms hn
    obtain ⟨mix, _, rfl, hm⟩ := hnew n ms hn
    exact (newMixState_spec hm).2.1
  induction acts using List.reverseRecOn generalizing s with
  | nil =>
    cases hx
    refine ⟨[], .nil, ?_, s0, rfl, fun _ => .refl s0, fun h => by rw [hcr0] at h; cases h⟩
    intro k sk hk
    simp only [List.take_nil, exec, Option.some.injEq] at hk ⊢
    subst hk
    exact ⟨s0, rfl, looksSame_of_like (.refl s0) (inv_init (env := env) h0)⟩
  | append_singleton as a ih =>
    obtain ⟨s1, h1, h2⟩ := exec_snoc hx
    have hc1 := step_not_crashed h2
    have hle1 : ∀ n, (delivered as n).length ≤ workloadOf w n := fun n => by
      have := hle n; rw [delivered_snoc, List.length_append] at this; omega
    have he1 : Exchanged env env' w as := ⟨he.1, he.2, he.3,
      fun n o ho => he.panics n o (by rw [delivered_snoc]; exact List.mem_append_left _ ho), fun n hn => by
        have h3 := hle n
        have h4 := he.contents n
        rw [delivered_snoc] at h3 h4
        rw [List.length_append] at h3 h4
        have h5 : deliveredBy a n = [] := List.eq_nil_of_length_eq_zero (by omega)
        rw [h5] at h4
        simpa using h4 (by simpa using hn)⟩
    obtain ⟨as', hf, hpre, s1', hx', hlk, -⟩ := ih h1 hle1 he1
    have hl := hlk hc1
    have hc1' : s1'.crashed = false := by rw [hl.crashed]; exact hc1
    have hI := exec_inv (inv_init h0) h1 hc1
    have hI' := exec_inv (inv_init (env := env') h0) hx' hc1'
    have hmix : ∀ n ms, s1.states n = some ms → ms.outputs.length = workloadOf w n ∧ ms.added ++ restFor s1 n = delivered as n := by
      intro n ms hn
      obtain ⟨ms0, hn0, hl0, _, _, hd⟩ := exec_some h1 hc1 (init_added h0) hh0 hn
      exact ⟨hl0.trans (hlen0 n ms0 hn0), hd⟩
    have hR : Ready env env' s1 := by
      intro n ms hn
      obtain ⟨h3, h4⟩ := hmix n ms hn
      have hlen := hle1 n
      rw [← h4, List.length_append] at hlen
      refine ⟨by omega, fun o ho => he1.panics n o (by rw [← h4]; exact List.mem_append_left _ ho), fun hf => ?_⟩
      have h9 : restFor s1 n = [] := List.eq_nil_of_length_eq_zero (by omega)
      rw [h9, List.append_nil] at h4
      rw [h4]
      exact ⟨he1.contents n (by rw [← h4]; omega), by rw [h3]; exact hsz n⟩
    obtain ⟨a', s', ha, hs', h3', h4⟩ := like_next hl hI hI' hR he.nCPU he.taskCap he.outCap h2
    have h3 := fun hc => (h3' hc).1
    have hx'' : exec env' s0 (as' ++ [a']) = some s' := by
      rw [exec_append, hx']; simp [exec, hs']
    refine ⟨as' ++ [a'], List.rel_append hf (.cons ha .nil), ?_, s', hx'', h3, h4⟩
    intro k sk hk
    have hlen := hf.length_eq
    by_cases hkl : k ≤ as.length
    · rw [List.take_append_of_le_length hkl] at hk
      rw [List.take_append_of_le_length (by omega)]
      exact hpre k sk hk
    · rw [List.take_of_length_le (by simp; omega)] at hk ⊢
      rw [hx] at hk
      cases hk
      refine ⟨s', hx'', ?_⟩
      cases hc : s.crashed with
      | true => exact looksSame_of_dead (h4 hc)
      | false => exact looksSame_of_like (h3 hc) (exec_inv (inv_init h0) hx hc)

end Resmix.Mixer
