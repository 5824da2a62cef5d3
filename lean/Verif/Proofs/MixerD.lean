import Verif.Proofs.MixerC
set_option autoImplicit false
namespace Resmix.Mixer

/-! ### Batches in flight come from calls -/

/-- Every batch of every call satisfies `P`. -/
def CallsAll (P : Messages → Prop) (acts : List Action) : Prop :=
  ∀ a ∈ acts, ∀ ms, a = .call ms → ∀ m ∈ ms, P m

theorem CallsAll.snoc {P : Messages → Prop} {acts : List Action} {a : Action} (h : CallsAll P (acts ++ [a])) :
    CallsAll P acts ∧ ∀ ms, a = .call ms → ∀ m ∈ ms, P m :=
  ⟨fun b hb => h b (by simp [hb]), h a (by simp)⟩

def RestAll (P : Messages → Prop) (s : State) : Prop := ∀ hd, s.holder = some hd → ∀ m ∈ hd.rest, P m

theorem restAll_step {env : Env} {P : Messages → Prop} {s s' : State} {a : Action} (h : StepR env s a s')
    (hr : RestAll P s) (ha : ∀ ms, a = .call ms → ∀ m ∈ ms, P m) : RestAll P s' := by
  intro hd hh m hm
  cases h with
  | call h => cases hh; exact ha _ rfl m hm
  | release h => cases hh
  | handle h _ => cases hh; exact hr _ h m (List.mem_cons_of_mem _ hm)
  | push h _ _ => cases hh; exact hr _ h m hm
  | doneYes h _ _ => cases hh; exact hr _ h m hm
  | doneNo h _ _ => cases hh; exact hr _ h m hm
  | _ => exact hr _ hh m hm

theorem exec_rest {env : Env} {P : Messages → Prop} {s0 s : State} {as : List Action} (hx : exec env s0 as = some s)
    (hc : s.crashed = false) (hh : s0.holder = none) (hP : CallsAll P as) : RestAll P s := by
  induction as using List.reverseRecOn generalizing s with
  | nil => cases hx; intro hd h; rw [hh] at h; cases h
  | append_singleton as a ih =>
    obtain ⟨s1, h1, h2⟩ := exec_snoc hx
    exact restAll_step (stepR_of_step h2 hc) (ih h1 (step_not_crashed h2) hP.snoc.1) hP.snoc.2

open Classical in
theorem exec_spawned {env : Env} {s0 s : State} {as : List Action} (hI : Inv env s0) (hx : exec env s0 as = some s)
    (hc : s.crashed = false) {n : Str} {pk : Str × Str} {ms0 : MixState} (hn : s0.states n = some ms0)
    (hadd : ms0.added = []) (hh : s0.holder = none) (g0 : GInv s0 n pk ms0) (hr0 : recvOf ms0 pk = 0)
    (hsh : s0.shufs = []) (hse : s0.sent = []) (hlast : ms0.isLastLayer = false) (hpos : 0 < ms0.outputs.length)
    (hne : NoEmptyBatch as n) (hle : (delivered as n).length ≤ ms0.outputs.length) :
    ∃ ms, s.states n = some ms ∧
      spawned s n = if recvOf ms pk = ms.outputs.length ∧ ¬ curIs s n then 1 else 0 := by
  induction as using List.reverseRecOn generalizing s with
  | nil =>
    cases hx
    refine ⟨ms0, hn, ?_⟩
    rw [if_neg]
    · simp [spawned, hsh, hse]
    · rintro ⟨h, _⟩; rw [hr0] at h; omega
  | append_singleton as a ih =>
    obtain ⟨s1, h1, h2⟩ := exec_snoc hx
    have hc1 := step_not_crashed h2
    have hne1 : NoEmptyBatch as n := fun b hb => hne b (by simp [hb])
    rw [delivered_snoc, List.length_append] at hle
    obtain ⟨ms1, hs1, hsp⟩ := ih h1 hc1 hne1 (by omega)
    obtain ⟨ms1', hs1', hl1, hla1, hd1, hg1, _⟩ := exec_ginv hI h1 hc1 hn hadd hh g0
    rw [hs1] at hs1'; cases hs1'
    have hR := stepR_of_step h2 hc
    obtain ⟨ms2, hs2, hl2, _, _, hd2, _⟩ := stepR_mix hR hs1
    refine ⟨ms2, hs2, spawned_step hR hs1 hs2 hg1 (hla1.trans hlast) (by omega) ?_ ?_ hsp⟩
    · have := congrArg List.length hd2
      rw [hd1] at this
      simp only [List.length_append] at this
      omega
    · exact exec_rest (P := fun m => m.logicalReceiver = n → m.messages ≠ []) h1 hc1 hh
        (fun b hb ms hms m hm => hne1 b hb ms hms m hm)

/-! ### A measure that every internal step decreases -/

def holderWeight : Option AddOp → Nat
  | none => 0
  | some h => 1 + (match h.cur with | none => 0 | some (_, ts) => 5 + 3 * ts.length) +
      (h.rest.map fun m => 6 + 3 * m.messages.length).sum

def shufWeight (f : Shuf) : Nat := if f.passed then 2 else 3

def weight (s : State) : Nat :=
  holderWeight s.holder + 2 * s.queue.length + s.busy.length + (s.shufs.map shufWeight).sum + s.output.length

theorem sum_eraseIdx {α} (f : α → Nat) (l : List α) (i : Nat) (x : α) (h : l[i]? = some x) :
    (l.map f).sum = f x + ((l.eraseIdx i).map f).sum := by
  have := List.Perm.foldr_eq (f := (· + ·)) (lcomm := ⟨by intro a b c; omega⟩) ((perm_eraseIdx l i x h).map f) 0
  simpa [List.sum] using this

theorem sum_set {α} (f : α → Nat) (l : List α) (i : Nat) (x y : α) (h : l[i]? = some x) :
    (l.map f).sum + f y = f x + ((l.set i y).map f).sum := by
  obtain ⟨hi, _⟩ := List.getElem?_eq_some_iff.1 h
  have h2 := sum_eraseIdx f (l.set i y) i y (by simp [hi])
  rw [List.eraseIdx_set_eq] at h2
  have h1 := sum_eraseIdx f l i x h
  omega

theorem weight_lt {env : Env} {s s' : State} {a : Action} (h : StepR env s a s') (ha : a.internal) :
    weight s' < weight s := by
  cases h with
  | call h => exact absurd ha (by simp [Action.internal])
  | close h => exact absurd ha (by simp [Action.internal])
  | release h => simp [weight, holderWeight, h]
  | @handle m rest ms h hm =>
    simp only [weight, holderWeight, h, State.set, handleNewInputs, mkTasks_length, List.map_cons, List.sum_cons]; omega
  | push h hcl hq => simp only [weight, holderWeight, h, List.length_append, List.length_cons, List.length_nil]; omega
  | doneYes h hm hd =>
    simp only [weight, holderWeight, h, List.map_append, List.sum_append, List.map_cons, List.map_nil, List.sum_cons,
      List.sum_nil, shufWeight, List.length_nil]
    simp
    omega
  | doneNo h hm hd => simp only [weight, holderWeight, h, List.length_nil]; omega
  | take hq hb => simp only [weight, hq, List.length_append, List.length_cons, List.length_nil]; omega
  | @finish i t ms ht hd hm h0 h1 hw =>
    obtain ⟨hi, _⟩ := List.getElem?_eq_some_iff.1 ht
    simp only [weight, State.set, List.length_eraseIdx, hi, if_true]; omega
  | @again i words n ms hi hm hw ho =>
    have h1 : (s.shufs.map shufWeight).sum = 3 + ((s.shufs.eraseIdx i).map shufWeight).sum :=
      sum_eraseIdx shufWeight s.shufs i _ hi
    have h2 : (s.shufs.map shufWeight).sum + 2 = 3 + ((s.shufs.set i ⟨n, true⟩).map shufWeight).sum :=
      sum_set shufWeight s.shufs i _ ⟨n, true⟩ hi
    simp only [weight]
    split <;> omega
  | @shuffle i words n ms out hi hm hw ho hout =>
    have h1 : (s.shufs.map shufWeight).sum = 3 + ((s.shufs.eraseIdx i).map shufWeight).sum :=
      sum_eraseIdx shufWeight s.shufs i _ hi
    have h2 : (s.shufs.map shufWeight).sum + 2 = 3 + ((s.shufs.set i ⟨n, true⟩).map shufWeight).sum :=
      sum_set shufWeight s.shufs i _ ⟨n, true⟩ hi
    simp only [weight, State.set]
    split <;> omega
  | @send i n ms hi hm hw hsw hcap =>
    have h1 := sum_eraseIdx shufWeight s.shufs i _ hi
    simp only [weight, List.length_append, List.length_cons, List.length_nil]
    simp only [shufWeight] at *; simp at h1; omega
  | recv hq => simp only [weight, hq, List.length_cons]; omega

theorem exec_weight {env : Env} {s s' : State} {as : List Action} (hx : exec env s as = some s')
    (hc : s'.crashed = false) (hi : ∀ a ∈ as, a.internal) : as.length + weight s' ≤ weight s := by
  induction as using List.reverseRecOn generalizing s' with
  | nil => cases hx; simp
  | append_singleton as a ih =>
    obtain ⟨s1, h1, h2⟩ := exec_snoc hx
    have := ih h1 (step_not_crashed h2) (fun b hb => hi b (by simp [hb]))
    have := weight_lt (stepR_of_step h2 hc) (hi a (by simp))
    simp only [List.length_append, List.length_cons, List.length_nil]
    omega

/-! ### No crash -/

/-- What must hold of the requests for the process to survive. -/
structure WellFormed (env : Env) (s0 : State) (acts : List Action) : Prop where
  receivers : CallsAll (fun m => (s0.states m.logicalReceiver).isSome) acts
  onions : CallsAll (fun m => ∀ o ∈ m.messages, env.decrypt o ≠ .error .panic) acts
  amounts : ∀ n ms0, s0.states n = some ms0 → (delivered acts n).length ≤ ms0.outputs.length
  open_ : .close ∉ acts

theorem WellFormed.snoc {env : Env} {s0 : State} {acts : List Action} {a : Action} (h : WellFormed env s0 (acts ++ [a])) :
    WellFormed env s0 acts where
  receivers := h.receivers.snoc.1
  onions := h.onions.snoc.1
  amounts := fun n ms0 hn => by
    have := h.amounts n ms0 hn
    rw [delivered_snoc, List.length_append] at this
    omega
  open_ := fun hm => h.open_ (by simp [hm])

theorem closed_step {env : Env} {s s' : State} {a : Action} (h : StepR env s a s') (ha : a ≠ .close)
    (hcl : s.closed = false) : s'.closed = false := by
  cases h <;> first | exact hcl | exact absurd rfl ha

theorem exec_closed {env : Env} {s s' : State} {as : List Action} (hx : exec env s as = some s') (hc : s'.crashed = false)
    (ha : .close ∉ as) (hcl : s.closed = false) : s'.closed = false := by
  induction as using List.reverseRecOn generalizing s' with
  | nil => cases hx; exact hcl
  | append_singleton as a ih =>
    obtain ⟨s1, h1, h2⟩ := exec_snoc hx
    exact closed_step (stepR_of_step h2 hc) (fun e => ha (by simp [e]))
      (ih h1 (step_not_crashed h2) (fun hm => ha (by simp [hm])))

theorem mem_delivered {acts : List Action} {n : Str} {o : Bytes} (h : o ∈ delivered acts n) :
    ∃ a ∈ acts, ∃ ms, a = .call ms ∧ ∃ m ∈ ms, m.logicalReceiver = n ∧ o ∈ m.messages := by
  simp only [delivered, List.mem_flatMap] at h
  obtain ⟨a, ha, ho⟩ := h
  cases a with
  | call ms =>
    simp only [deliveredBy, onionsFor, List.mem_flatMap, List.mem_filter] at ho
    obtain ⟨m, ⟨hm, hr⟩, hom⟩ := ho
    exact ⟨_, ha, ms, rfl, m, hm, by simpa using hr, hom⟩
  | _ => simp [deliveredBy] at ho

/-- The mixes of the initial state and their history, in a live state. -/
theorem exec_some {env : Env} {s0 s : State} {as : List Action} (hx : exec env s0 as = some s) (hc : s.crashed = false)
    (hadd : ∀ n ms, s0.states n = some ms → ms.added = []) (hh : s0.holder = none) {n : Str} {ms : MixState}
    (hn : s.states n = some ms) : ∃ ms0, s0.states n = some ms0 ∧ ms.outputs.length = ms0.outputs.length ∧
      ms.predecessors = ms0.predecessors ∧ ms.isLastLayer = ms0.isLastLayer ∧ ms.added ++ restFor s n = delivered as n := by
  cases h0 : s0.states n with
  | none => rw [exec_no_mix hx h0] at hn; cases hn
  | some ms0 =>
    obtain ⟨ms', hs', h⟩ := exec_mix hx hc h0 (hadd n ms0 h0) hh
    rw [hn] at hs'; cases hs'
    exact ⟨ms0, rfl, h⟩

theorem exec_safe {env : Env} {s0 s : State} {as : List Action} (hI : Inv env s0) (hh : s0.holder = none)
    (hadd : ∀ n ms, s0.states n = some ms → ms.added = []) (hcl : s0.closed = false) (hc0 : s0.crashed = false)
    (hx : exec env s0 as = some s) (hw : WellFormed env s0 as) : s.crashed = false := by
  induction as using List.reverseRecOn generalizing s with
  | nil => cases hx; exact hc0
  | append_singleton as a ih =>
    obtain ⟨s1, h1, h2⟩ := exec_snoc hx
    have hc1 := ih h1 hw.snoc
    have hI1 := exec_inv hI h1 hc1
    have hcl1 := exec_closed h1 hc1 hw.snoc.open_ hcl
    have hrec := exec_rest h1 hc1 hh hw.snoc.receivers
    have hle1 : ∀ n ms, s1.states n = some ms → ms.added.length ≤ ms.outputs.length := by
      intro n ms hn
      obtain ⟨ms0, h0, hl, _, _, hd⟩ := exec_some h1 hc1 hadd hh hn
      have := hw.snoc.amounts n ms0 h0
      rw [← hd, List.length_append] at this
      omega
    unfold Mixer.step at h2
    rw [if_neg (by simp [hc1])] at h2
    cases a with
    | call ms => simp only at h2; split at h2 <;> cases h2; exact hc1
    | addStep =>
      simp only [Mixer.addStep] at h2
      split at h2
      · cases h2
      · cases h2; exact hc1
      · next m rest hh1 =>
        split at h2
        · next hnone =>
          exfalso
          have := hrec _ hh1 m (by simp)
          obtain ⟨ms0, h0⟩ := Option.isSome_iff_exists.1 this
          obtain ⟨ms', hs', _⟩ := exec_mix h1 hc1 h0 (hadd _ _ h0) hh
          rw [hnone] at hs'; cases hs'
        · cases h2; exact hc1
      · simp only [hcl1] at h2
        split at h2
        · next hf => cases hf
        · split at h2
          · cases h2; exact hc1
          · cases h2
      · split at h2
        · cases h2
        · split at h2 <;> (cases h2; exact hc1)
    | take =>
      simp only at h2
      split at h2
      · cases h2
      · split at h2
        · cases h2; exact hc1
        · cases h2
    | finish i =>
      simp only at h2
      split at h2
      · cases h2
      · next t ht =>
        cases h2
        have htm : t ∈ tasks s1 := by
          simp only [tasks, List.mem_append]; exact .inr (List.mem_of_getElem? ht)
        obtain ⟨ms, hms⟩ := Option.isSome_iff_exists.1 (hI1.known t htm)
        have hb := (hI1.mix _ ms hms).body (hle1 _ ms hms)
        have htp : t ∈ pend s1 t.mix := by simp [pend, htm]
        obtain ⟨k, hk, hi⟩ := hb.src t htp
        have hkl : k < ms.added.length := (List.getElem?_eq_some_iff.1 hk).1
        have hin : t.input ∈ delivered as t.mix := by
          obtain ⟨ms0, h0, _, _, _, hd⟩ := exec_some h1 hc1 hadd hh hms
          rw [← hd]; exact List.mem_append_left _ (List.mem_of_getElem? hk)
        obtain ⟨a, ha, bs, hab, m, hm, _, hom⟩ := mem_delivered hin
        have hdec := hw.snoc.onions a ha bs hab m hm _ hom
        have hle := hle1 _ ms hms
        have hcnt := hb.cnt
        have hpl : 0 < (pend s1 t.mix).length := List.length_pos_of_mem htp
        unfold Mixer.finishTask
        split
        · next hp => exact absurd hp hdec
        · simp only [hms]
          rw [if_pos ⟨by omega, by omega⟩, if_neg (by omega)]
          exact hc1
    | shuffle i words =>
      simp only [Mixer.shuffleStep] at h2
      split at h2
      · split at h2
        · cases h2
        · next n _ ms hm =>
          split at h2
          · split at h2
            · cases h2; exact hc1
            · obtain ⟨out, sh, hout, hperm⟩ := shuffle_ok words ms.outputs
              simp only [hout] at h2
              cases h2; exact hc1
          · cases h2
      · cases h2
    | send i =>
      simp only [sendStep] at h2
      split at h2
      · split at h2
        · cases h2
        · split at h2
          · cases h2
          · split at h2
            · cases h2; exact hc1
            · cases h2
      · cases h2
    | recv =>
      simp only at h2
      split at h2
      · cases h2
      · cases h2; exact hc1
    | close => exact absurd (by simp) hw.open_

/-! ### Progress -/

/-- Nothing left to do. -/
def Idle (s : State) : Prop := s.holder = none ∧ s.queue = [] ∧ s.busy = [] ∧ s.shufs = [] ∧ s.output = []

/-- A goroutine `shuffleAndSend` of mix `n` only exists once all expected onions came. -/
theorem shuf_recv_step {env : Env} {s s' : State} {a : Action} {n : Str} {pk : Str × Str} {ms ms' : MixState}
    (h : StepR env s a s') (hn : s.states n = some ms) (hn' : s'.states n = some ms')
    (hpred : ms.predecessors = [(pk, (ms.outputs.length : Int))]) (hra : recvOf ms' pk ≤ ms'.added.length)
    (hle : ms'.added.length ≤ ms'.outputs.length)
    (hinv : ∀ f ∈ s.shufs, f.mix = n → recvOf ms pk = ms.outputs.length) :
    ∀ f ∈ s'.shufs, f.mix = n → recvOf ms' pk = ms'.outputs.length := by
  have hlen : ms'.outputs.length = ms.outputs.length := by
    obtain ⟨m2, h2, hl, _⟩ := stepR_mix h hn
    rw [hn'] at h2; cases h2; exact hl
  intro f hf hfn
  have mono : ms.outputs.length = recvOf ms pk → recvOf ms pk ≤ recvOf ms' pk → recvOf ms' pk = ms'.outputs.length := by
    intro h1 h2; omega
  have hmono : recvOf ms pk ≤ recvOf ms' pk := by
    cases h with
    | @handle m rest ms0 h hm =>
      by_cases he : n = m.logicalReceiver
      · subst he; rw [hm] at hn; cases hn
        simp only [State.set, if_true, Option.some.injEq] at hn'
        subst hn'
        rw [recvOf_handle]; split <;> omega
      · simp only [State.set, he, if_false] at hn'
        have e : some ms = some ms' := hn.symm.trans hn'; cases e; exact Int.le_refl _
    | @finish i t ms0 ht hd hm h0 h1 hw =>
      by_cases he : n = t.mix
      · subst he; rw [hm] at hn; cases hn
        simp only [State.set, if_true, Option.some.injEq] at hn'
        subst hn'; exact Int.le_refl _
      · simp only [State.set, he, if_false] at hn'
        have e : some ms = some ms' := hn.symm.trans hn'; cases e; exact Int.le_refl _
    | @shuffle i words n0 ms0 out hi hm hw ho hout =>
      by_cases he : n = n0
      · subst he; rw [hm] at hn; cases hn
        simp only [State.set, if_true, Option.some.injEq] at hn'
        subst hn'; exact Int.le_refl _
      · simp only [State.set, he, if_false] at hn'
        have e : some ms = some ms' := hn.symm.trans hn'; cases e; exact Int.le_refl _
    | _ => have e : some ms = some ms' := hn.symm.trans hn'; cases e; exact Int.le_refl _
  have hset : ∀ {i n0} {l : Bool}, s.shufs[i]? = some ⟨n0, false⟩ →
      f ∈ (if l then s.shufs.eraseIdx i else s.shufs.set i ⟨n0, true⟩) → ∃ f' ∈ s.shufs, f'.mix = n := by
    intro i n0 l hi hm
    split at hm
    · exact ⟨f, List.mem_of_mem_eraseIdx hm, hfn⟩
    · rcases mem_of_mem_set hm with hm | hm
      · exact ⟨f, hm, hfn⟩
      · subst hm; exact ⟨_, List.mem_of_getElem? hi, hfn⟩
  have old : ∀ f' ∈ s.shufs, f'.mix = n → recvOf ms' pk = ms'.outputs.length :=
    fun f' h1 h2 => mono (hinv f' h1 h2).symm hmono
  cases h with
  | @doneYes n0 rest ms0 h hm hd =>
    rcases List.mem_append.1 hf with hf | hf
    · exact old f hf hfn
    · simp at hf; subst hf
      have hfn : n0 = n := hfn
      subst hfn
      have e : some ms = some ms' := hn.symm.trans hn'; cases e
      rw [hm] at hn; cases hn
      exact (isDone_single hpred).1 hd
  | @again i words n0 ms0 hi hm hw ho => obtain ⟨f', h1, h2⟩ := hset hi hf; exact old f' h1 h2
  | @shuffle i words n0 ms0 out hi hm hw ho hout => obtain ⟨f', h1, h2⟩ := hset hi hf; exact old f' h1 h2
  | send hi hm hw hsw hcap => exact old f (List.mem_of_mem_eraseIdx hf) hfn
  | _ => exact old f hf hfn

theorem exec_shuf_recv {env : Env} {s0 s : State} {as : List Action} (hI : Inv env s0) (hx : exec env s0 as = some s)
    (hc : s.crashed = false) {n : Str} {pk : Str × Str} {ms0 : MixState} (hn : s0.states n = some ms0)
    (hadd : ms0.added = []) (hh : s0.holder = none) (g0 : GInv s0 n pk ms0) (hsh : s0.shufs = [])
    (hle : (delivered as n).length ≤ ms0.outputs.length) :
    ∃ ms, s.states n = some ms ∧ ∀ f ∈ s.shufs, f.mix = n → recvOf ms pk = ms.outputs.length := by
  induction as using List.reverseRecOn generalizing s with
  | nil => cases hx; exact ⟨ms0, hn, by simp [hsh]⟩
  | append_singleton as a ih =>
    obtain ⟨s1, h1, h2⟩ := exec_snoc hx
    have hc1 := step_not_crashed h2
    have hle' := hle
    rw [delivered_snoc, List.length_append] at hle'
    obtain ⟨ms1, hs1, hsp⟩ := ih h1 hc1 (by omega)
    obtain ⟨ms1', hs1', hl1, hla1, hd1, hg1, _⟩ := exec_ginv hI h1 hc1 hn hadd hh g0
    rw [hs1] at hs1'; cases hs1'
    obtain ⟨ms2, hs2, hl2, hla2, hd2, hg2, _⟩ := exec_ginv hI hx hc hn hadd hh g0
    refine ⟨ms2, hs2, shuf_recv_step (stepR_of_step h2 hc) hs1 hs2 hg1.preds hg2.radd ?_ hsp⟩
    have := congrArg List.length hd2
    simp only [List.length_append] at this
    omega

/-- Either the process can move on its own or nothing is left. -/
theorem progress {env : Env} {s : State} (hcpu : 0 < env.nCPU) (htc : 0 < env.taskCap) (hoc : 0 < env.outCap)
    (hI : Inv env s) (hc : s.crashed = false)
    (hle : ∀ n ms, s.states n = some ms → ms.added.length ≤ ms.outputs.length)
    (hshuf : ∀ f ∈ s.shufs, ∃ ms, s.states f.mix = some ms ∧ ms.added.length = ms.outputs.length ∧
      (f.passed = true → ms.once = true)) :
    Idle s ∨ ∃ a, a.internal ∧ (step env s a).isSome := by
  cases hout : s.output with
  | cons b q => exact .inr ⟨.recv, trivial, by simp [step, hc, hout]⟩
  | nil =>
  cases hbusy : s.busy with
  | cons t q => exact .inr ⟨.finish 0, trivial, by simp [step, hc, hbusy]⟩
  | nil =>
  cases hq : s.queue with
  | cons t q => exact .inr ⟨.take, trivial, by simp [step, hc, hq, hbusy, hcpu]⟩
  | nil =>
  cases hh : s.holder with
  | some hd =>
    refine .inr ⟨.addStep, trivial, ?_⟩
    simp only [step, hc, Mixer.addStep]
    obtain ⟨cur, rest⟩ := hd
    cases cur with
    | none =>
      cases rest with
      | nil => simp [hh]
      | cons m rest => simp only [hh]; cases s.states m.logicalReceiver <;> simp
    | some c =>
      obtain ⟨n, ts⟩ := c
      cases ts with
      | nil =>
        obtain ⟨ms, hms⟩ := Option.isSome_iff_exists.1 (hI.cur _ _ _ hh).1
        simp only [hh, hms]
        cases isDone ms <;> simp
      | cons t ts =>
        simp only [hh, hq, List.length_nil, htc, if_true]
        cases s.closed <;> simp
  | none =>
  cases hsf : s.shufs with
  | nil => exact .inl ⟨hh, hq, hbusy, hsf, hout⟩
  | cons f fs =>
    right
    obtain ⟨ms, hms, hfull, hpass⟩ := hshuf f (by simp [hsf])
    have hM := hI.mix _ ms hms
    have hcnt := (hM.body (by omega)).cnt
    have hp : pend s f.mix = [] := by simp [pend, tasks, hh, hq, hbusy]
    rw [hp] at hcnt
    have hwg : ms.wg = 0 := by simp at hcnt; omega
    obtain ⟨n, p⟩ := f
    cases p with
    | false =>
      refine ⟨.shuffle 0 [], trivial, ?_⟩
      simp only [step, hc, shuffleStep, hsf, List.getElem?_cons_zero, hms, hwg, if_true]
      simp only [Bool.false_eq_true, if_false]
      split
      · simp
      · obtain ⟨out, sh, hout', hperm⟩ := shuffle_ok [] ms.outputs
        simp [hout']
    | true =>
      refine ⟨.send 0, trivial, ?_⟩
      have hsw := hM.sw.1
      rw [hpass rfl] at hsw
      simp only [if_true] at hsw
      have hg : getOutputs ms = some ms.outputs := by simp [getOutputs, hwg, hsw]
      simp [step, hc, sendStep, hsf, hms, hg, hout, hoc]

end Resmix.Mixer
