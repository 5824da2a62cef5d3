import Verif.Proofs.MixerB
set_option autoImplicit false
namespace Resmix.Mixer

/-! ### Received counters and shuffle goroutines -/

def recvOf (ms : MixState) (pk : Str × Str) : Int := (ms.totalReceived.lookup pk).getD 0

def curIs (s : State) (n : Str) : Prop := ∃ ts rest, s.holder = some ⟨some (n, ts), rest⟩

theorem isDone_single {ms : MixState} {pk : Str × Str} {W : Int} (h : ms.predecessors = [(pk, W)]) :
    isDone ms = true ↔ recvOf ms pk = W := by
  simp [isDone, h, recvOf, eq_comm]

def fromPk (pk : Str × Str) (n : Str) (ms : List Messages) : List Bytes :=
  (ms.filter fun m => m.logicalReceiver = n ∧ (m.physicalSender, m.logicalSender) = pk).flatMap (·.messages)

def restFrom (s : State) (pk : Str × Str) (n : Str) : List Bytes :=
  match s.holder with
  | none => []
  | some h => fromPk pk n h.rest

def byFrom (a : Action) (pk : Str × Str) (n : Str) : List Bytes :=
  match a with
  | .call ms => fromPk pk n ms
  | _ => []

theorem deliveredFrom_snoc (as : List Action) (a : Action) (pk : Str × Str) (n : Str) :
    deliveredFrom (as ++ [a]) pk n = deliveredFrom as pk n ++ byFrom a pk n := by
  simp only [deliveredFrom, List.flatMap_append]
  congr 1
  simp only [List.flatMap_cons, List.flatMap_nil, List.append_nil]
  cases a <;> rfl

theorem fromPk_cons (pk : Str × Str) (n : Str) (m : Messages) (rest : List Messages) :
    fromPk pk n (m :: rest) =
      (if m.logicalReceiver = n ∧ (m.physicalSender, m.logicalSender) = pk then m.messages else []) ++ fromPk pk n rest := by
  unfold fromPk
  by_cases h : m.logicalReceiver = n ∧ (m.physicalSender, m.logicalSender) = pk
  · rw [List.filter_cons_of_pos (by simpa using h), if_pos h]; simp
  · rw [List.filter_cons_of_neg (by simpa using h), if_neg h]; simp

theorem recvOf_handle (ms : MixState) (m : Messages) (pk : Str × Str) :
    recvOf (handleNewInputs ms m).1 pk =
      recvOf ms pk + if (m.physicalSender, m.logicalSender) = pk then (m.messages.length : Int) else 0 := by
  simp only [recvOf, handleNewInputs]
  rw [GoMap.lookup_insert]
  by_cases h : pk = (m.physicalSender, m.logicalSender)
  · subst h; simp
  · rw [if_neg h, if_neg (fun e => h e.symm)]; simp

/-- Effect of a step on the received counter. -/
theorem stepR_recv {env : Env} {s s' : State} {a : Action} (h : StepR env s a s') {n : Str} {ms ms' : MixState}
    (hn : s.states n = some ms) (hn' : s'.states n = some ms') (pk : Str × Str) :
    recvOf ms' pk + (restFrom s' pk n).length = recvOf ms pk + (restFrom s pk n).length + (byFrom a pk n).length := by
  cases h with
  | call h => rw [hn] at hn'; cases hn'; simp [restFrom, h, byFrom]
  | release h => have e : some ms = some ms' := hn.symm.trans hn'; cases e; simp [restFrom, h, byFrom, fromPk]
  | @handle m rest ms0 h hm =>
    by_cases he : n = m.logicalReceiver
    · subst he
      rw [hm] at hn; cases hn
      simp only [State.set, if_true, Option.some.injEq] at hn'
      subst hn'
      rw [recvOf_handle]
      simp only [restFrom, h, byFrom, fromPk_cons, true_and, List.length_append]
      split
      · simp; omega
      · simp
    · simp only [State.set, he, if_false] at hn'
      have e : some ms = some ms' := hn.symm.trans hn'; cases e
      have : ¬ m.logicalReceiver = n := fun e => he e.symm
      simp [restFrom, h, byFrom, fromPk_cons, this]
  | push h hcl hq => have e : some ms = some ms' := hn.symm.trans hn'; cases e; simp [restFrom, h, byFrom]
  | doneYes h hm hd => have e : some ms = some ms' := hn.symm.trans hn'; cases e; simp [restFrom, h, byFrom]
  | doneNo h hm hd => have e : some ms = some ms' := hn.symm.trans hn'; cases e; simp [restFrom, h, byFrom]
  | @finish i t ms0 ht hd hm h0 h1 hw =>
    by_cases he : n = t.mix
    · subst he
      rw [hm] at hn; cases hn
      simp only [State.set, if_true, Option.some.injEq] at hn'
      subst hn'
      simp [restFrom, byFrom, State.set, recvOf]
    · simp only [State.set, he, if_false] at hn'
      have e : some ms = some ms' := hn.symm.trans hn'; cases e
      simp [restFrom, byFrom, State.set]
  | @shuffle i words n0 ms0 out hi hm hw ho hout =>
    by_cases he : n = n0
    · subst he
      rw [hm] at hn; cases hn
      simp only [State.set, if_true, Option.some.injEq] at hn'
      subst hn'
      simp [restFrom, byFrom, State.set, recvOf]
    · simp only [State.set, he, if_false] at hn'
      have e : some ms = some ms' := hn.symm.trans hn'; cases e
      simp [restFrom, byFrom, State.set]
  | _ => have e : some ms = some ms' := hn.symm.trans hn'; cases e; simp [restFrom, byFrom]

/-- General invariant about the goroutines of mix `n` with a single predecessor `pk`. -/
structure GInv (s : State) (n : Str) (pk : Str × Str) (ms : MixState) : Prop where
  preds : ms.predecessors = [(pk, (ms.outputs.length : Int))]
  r0 : 0 ≤ recvOf ms pk
  radd : recvOf ms pk ≤ ms.added.length
  done : recvOf ms pk = ms.outputs.length → 0 < ms.outputs.length → curIs s n ∨ ⟨n, false⟩ ∈ s.shufs ∨ ms.once = true
  passed : ⟨n, true⟩ ∈ s.shufs → ms.once = true ∧ ms.isLastLayer = false
  sent : ∀ b ∈ s.sent, b.logicalSender = n → ms.once = true ∧ ms.isLastLayer = false
  sentEq : ms.added.length ≤ ms.outputs.length → ∀ b ∈ s.sent, b.logicalSender = n → b.onions = ms.outputs

theorem mem_eraseIdx_of_ne {α} {l : List α} {i : Nat} {x y : α} (hi : l[i]? = some y) (hx : x ∈ l) (hne : x ≠ y) :
    x ∈ l.eraseIdx i := by
  have := (perm_eraseIdx l i y hi).mem_iff.1 hx
  rcases List.mem_cons.1 this with h | h
  · exact absurd h hne
  · exact h

theorem mem_of_mem_set {α} {l : List α} {i : Nat} {x y : α} (h : x ∈ l.set i y) : x ∈ l ∨ x = y :=
  List.mem_or_eq_of_mem_set h

theorem mem_set_of_ne {α} {l : List α} {i : Nat} {x y z : α} (hi : l[i]? = some y) (hx : x ∈ l) (hne : x ≠ y) :
    x ∈ l.set i z := by
  obtain ⟨j, hj, rfl⟩ := List.mem_iff_getElem.1 hx
  have : i ≠ j := by
    rintro rfl
    rw [List.getElem?_eq_getElem hj] at hi
    exact hne (Option.some.inj hi)
  rw [List.mem_iff_getElem]
  exact ⟨j, by simpa using hj, by simp [List.getElem_set, this]⟩

theorem GInv.step {env : Env} {s s' : State} {a : Action} {n : Str} {pk : Str × Str} {ms ms' : MixState}
    (hI : Inv env s) (h : StepR env s a s') (hn : s.states n = some ms) (hn' : s'.states n = some ms')
    (g : GInv s n pk ms) : GInv s' n pk ms' := by
  obtain ⟨ms'', hn'', hlen, hpred, hlast, hadd, honce⟩ := stepR_mix h hn
  rw [hn'] at hn''; cases hn''
  have hmono : ms.added.length ≤ ms'.added.length ∨ ms'.added = ms.added := by
    cases h with
    | @handle m rest ms0 h hm =>
      left
      by_cases he : n = m.logicalReceiver
      · subst he; rw [hm] at hn; cases hn
        simp only [State.set, if_true, Option.some.injEq] at hn'
        subst hn'; simp [handleNewInputs]
      · simp only [State.set, he, if_false] at hn'
        have e : some ms = some ms' := hn.symm.trans hn'; cases e; exact Nat.le_refl _
    | @finish i t ms0 ht hd hm h0 h1 hw =>
      right
      by_cases he : n = t.mix
      · subst he; rw [hm] at hn; cases hn
        simp only [State.set, if_true, Option.some.injEq] at hn'
        subst hn'; rfl
      · simp only [State.set, he, if_false] at hn'
        have e : some ms = some ms' := hn.symm.trans hn'; cases e; rfl
    | @shuffle i words n0 ms0 out hi hm hw ho hout =>
      right
      by_cases he : n = n0
      · subst he; rw [hm] at hn; cases hn
        simp only [State.set, if_true, Option.some.injEq] at hn'
        subst hn'; rfl
      · simp only [State.set, he, if_false] at hn'
        have e : some ms = some ms' := hn.symm.trans hn'; cases e; rfl
    | _ => right; have e : some ms = some ms' := hn.symm.trans hn'; cases e; rfl
  have hpreds : ms'.predecessors = [(pk, (ms'.outputs.length : Int))] := by rw [hpred, g.preds, hlen]
  -- recv stays between 0 and added
  have hr : 0 ≤ recvOf ms' pk ∧ recvOf ms' pk ≤ ms'.added.length := by
    cases h with
    | @handle m rest ms0 h hm =>
      by_cases he : n = m.logicalReceiver
      · subst he; rw [hm] at hn; cases hn
        simp only [State.set, if_true, Option.some.injEq] at hn'
        subst hn'
        rw [recvOf_handle]
        have h1 := g.r0; have h2 := g.radd
        simp only [handleNewInputs, List.length_append]
        split <;> push_cast <;> constructor <;> omega
      · simp only [State.set, he, if_false] at hn'
        have e : some ms = some ms' := hn.symm.trans hn'; cases e; exact ⟨g.r0, g.radd⟩
    | @finish i t ms0 ht hd hm h0 h1 hw =>
      by_cases he : n = t.mix
      · subst he; rw [hm] at hn; cases hn
        simp only [State.set, if_true, Option.some.injEq] at hn'
        subst hn'; exact ⟨g.r0, g.radd⟩
      · simp only [State.set, he, if_false] at hn'
        have e : some ms = some ms' := hn.symm.trans hn'; cases e; exact ⟨g.r0, g.radd⟩
    | @shuffle i words n0 ms0 out hi hm hw ho hout =>
      by_cases he : n = n0
      · subst he; rw [hm] at hn; cases hn
        simp only [State.set, if_true, Option.some.injEq] at hn'
        subst hn'; exact ⟨g.r0, g.radd⟩
      · simp only [State.set, he, if_false] at hn'
        have e : some ms = some ms' := hn.symm.trans hn'; cases e; exact ⟨g.r0, g.radd⟩
    | _ => have e : some ms = some ms' := hn.symm.trans hn'; cases e; exact ⟨g.r0, g.radd⟩
  -- outputs of a sent batch are final
  have hfinal : ms'.added.length ≤ ms'.outputs.length → ms.once = true → ms'.outputs = ms.outputs := by
    intro hl ho
    have hl0 : ms.added.length ≤ ms.outputs.length := by
      rcases hmono with hm | hm
      · rw [hlen] at hl; omega
      · rw [hm, hlen] at hl; exact hl
    obtain ⟨ms2, h2, ho2, _⟩ := stepR_final hI h hn ho hl0
    rw [hn'] at h2; cases h2; exact ho2
  have hlemono : ms'.added.length ≤ ms'.outputs.length → ms.added.length ≤ ms.outputs.length := by
    intro hl
    rcases hmono with hm | hm
    · rw [hlen] at hl; omega
    · rw [hm, hlen] at hl; exact hl
  refine ⟨hpreds, hr.1, hr.2, ?_, ?_, ?_, ?_⟩
  · -- done
    intro hrW hpos
    rw [hlen] at hpos
    cases h with
    | call h =>
      have e : some ms = some ms' := hn.symm.trans hn'; cases e
      rcases g.done hrW hpos with hc | hc
      · obtain ⟨ts, rest, hc⟩ := hc; rw [h] at hc; cases hc
      · exact .inr hc
    | release h =>
      have e : some ms = some ms' := hn.symm.trans hn'; cases e
      rcases g.done hrW hpos with hc | hc
      · obtain ⟨ts, rest, hc⟩ := hc; rw [h] at hc; cases hc
      · exact .inr hc
    | @handle m rest ms0 h hm =>
      by_cases he : n = m.logicalReceiver
      · exact .inl ⟨_, _, by rw [he]⟩
      · simp only [State.set, he, if_false] at hn'
        have e : some ms = some ms' := hn.symm.trans hn'; cases e
        rcases g.done hrW hpos with hc | hc
        · obtain ⟨ts, rest, hc⟩ := hc; rw [h] at hc; cases hc
        · exact .inr hc
    | @push n0 t ts rest h hcl hq =>
      have e : some ms = some ms' := hn.symm.trans hn'; cases e
      rcases g.done hrW hpos with hc | hc
      · obtain ⟨ts', rest', hc⟩ := hc
        rw [h] at hc; cases hc
        exact .inl ⟨_, _, rfl⟩
      · exact .inr hc
    | @doneYes n0 rest ms0 h hm hd =>
      have e : some ms = some ms' := hn.symm.trans hn'; cases e
      rcases g.done hrW hpos with hc | hc
      · obtain ⟨ts', rest', hc⟩ := hc
        rw [h] at hc; cases hc
        exact .inr (.inl (by simp))
      · exact .inr (hc.imp_left (fun hh => List.mem_append_left _ hh))
    | @doneNo n0 rest ms0 h hm hd =>
      have e : some ms = some ms' := hn.symm.trans hn'; cases e
      rcases g.done hrW hpos with hc | hc
      · obtain ⟨ts', rest', hc⟩ := hc
        rw [h] at hc; cases hc
        rw [hm] at hn; cases hn
        have : isDone ms = true := (isDone_single g.preds).2 hrW
        rw [hd] at this; cases this
      · exact .inr hc
    | @finish i t ms0 ht hd hm h0 h1 hw =>
      have hms : recvOf ms pk = ms.outputs.length ∧ (ms'.once = ms.once) := by
        by_cases he : n = t.mix
        · subst he; rw [hm] at hn; cases hn
          simp only [State.set, if_true, Option.some.injEq] at hn'
          subst hn'
          exact ⟨by simpa [recvOf] using hrW, rfl⟩
        · simp only [State.set, he, if_false] at hn'
          have e : some ms = some ms' := hn.symm.trans hn'; cases e; exact ⟨hrW, rfl⟩
      rw [hms.2]
      exact g.done hms.1 hpos
    | @again i words n0 ms0 hi hm hw ho =>
      have e : some ms = some ms' := hn.symm.trans hn'; cases e
      by_cases he : n = n0
      · subst he; rw [hm] at hn; cases hn; exact .inr (.inr ho)
      · rcases g.done hrW hpos with hc | hc | hc
        · exact .inl hc
        · refine .inr (.inl ?_)
          have hne : (⟨n, false⟩ : Shuf) ≠ ⟨n0, false⟩ := by simp [he]
          show _ ∈ (if ms0.isLastLayer then s.shufs.eraseIdx i else s.shufs.set i ⟨n0, true⟩)
          split
          · exact mem_eraseIdx_of_ne hi hc hne
          · exact mem_set_of_ne hi hc hne
        · exact .inr (.inr hc)
    | @shuffle i words n0 ms0 out hi hm hw ho hout =>
      by_cases he : n = n0
      · subst he; rw [hm] at hn; cases hn
        simp only [State.set, if_true, Option.some.injEq] at hn'
        subst hn'; exact .inr (.inr rfl)
      · simp only [State.set, he, if_false] at hn'
        have e : some ms = some ms' := hn.symm.trans hn'; cases e
        rcases g.done hrW hpos with hc | hc | hc
        · exact .inl hc
        · refine .inr (.inl ?_)
          have hne : (⟨n, false⟩ : Shuf) ≠ ⟨n0, false⟩ := by simp [he]
          show _ ∈ (if ms0.isLastLayer then s.shufs.eraseIdx i else s.shufs.set i ⟨n0, true⟩)
          split
          · exact mem_eraseIdx_of_ne hi hc hne
          · exact mem_set_of_ne hi hc hne
        · exact .inr (.inr hc)
    | @send i n0 ms0 hi hm hw hsw hcap =>
      have e : some ms = some ms' := hn.symm.trans hn'; cases e
      rcases g.done hrW hpos with hc | hc | hc
      · exact .inl hc
      · exact .inr (.inl (mem_eraseIdx_of_ne hi hc (by simp)))
      · exact .inr (.inr hc)
    | take hq hb =>
      have e : some ms = some ms' := hn.symm.trans hn'; cases e; exact g.done hrW hpos
    | recv hq =>
      have e : some ms = some ms' := hn.symm.trans hn'; cases e; exact g.done hrW hpos
    | close hcl =>
      have e : some ms = some ms' := hn.symm.trans hn'; cases e; exact g.done hrW hpos
  · -- passed
    intro hp
    rw [hlast]
    have old : ⟨n, true⟩ ∈ s.shufs → ms'.once = true ∧ ms.isLastLayer = false :=
      fun hh => ⟨honce (g.passed hh).1, (g.passed hh).2⟩
    cases h with
    | doneYes h hm hd =>
      rcases List.mem_append.1 hp with hp | hp
      · exact old hp
      · simp at hp
    | @again i words n0 ms0 hi hm hw ho =>
      have e : some ms = some ms' := hn.symm.trans hn'; cases e
      have hp : _ ∈ (if ms0.isLastLayer then s.shufs.eraseIdx i else s.shufs.set i ⟨n0, true⟩) := hp
      split at hp
      · exact old (List.mem_of_mem_eraseIdx hp)
      · next hl =>
        rcases mem_of_mem_set hp with hp | hp
        · exact old hp
        · cases hp; rw [hm] at hn; cases hn; exact ⟨ho, by simpa using hl⟩
    | @shuffle i words n0 ms0 out hi hm hw ho hout =>
      have hp : _ ∈ (if ms0.isLastLayer then s.shufs.eraseIdx i else s.shufs.set i ⟨n0, true⟩) := hp
      split at hp
      · exact old (List.mem_of_mem_eraseIdx hp)
      · next hl =>
        rcases mem_of_mem_set hp with hp | hp
        · exact old hp
        · cases hp; rw [hm] at hn; cases hn
          simp only [State.set, if_true, Option.some.injEq] at hn'
          subst hn'; exact ⟨rfl, by simpa using hl⟩
    | send hi hm hw hsw hcap => exact old (List.mem_of_mem_eraseIdx hp)
    | _ => exact old hp
  · -- sent
    intro b hb hbn
    rw [hlast]
    have old : b ∈ s.sent → ms'.once = true ∧ ms.isLastLayer = false :=
      fun hh => ⟨honce (g.sent b hh hbn).1, (g.sent b hh hbn).2⟩
    cases h with
    | @send i n0 ms0 hi hm hw hsw hcap =>
      have e : some ms = some ms' := hn.symm.trans hn'; cases e
      rcases List.mem_append.1 hb with hb | hb
      · exact old hb
      · simp only [List.mem_singleton] at hb
        subst hb
        have hbn : n0 = n := hbn
        subst hbn
        exact g.passed (List.mem_of_getElem? hi)
    | _ => exact old hb
  · -- sentEq
    intro hl b hb hbn
    have old : b ∈ s.sent → b.onions = ms'.outputs := by
      intro hh
      rw [hfinal hl (g.sent b hh hbn).1]
      exact g.sentEq (hlemono hl) b hh hbn
    cases h with
    | @send i n0 ms0 hi hm hw hsw hcap =>
      rcases List.mem_append.1 hb with hb | hb
      · exact old hb
      · simp only [List.mem_singleton] at hb
        subst hb
        have hbn : n0 = n := hbn
        subst hbn
        have e : some ms = some ms' := hn.symm.trans hn'; cases e
        rw [hm] at hn; cases hn; rfl
    | _ => exact old hb

theorem ginv_init {s0 : State} {n : Str} {pk : Str × Str} {ms0 : MixState} (hn : s0.states n = some ms0)
    (hpred : ms0.predecessors = [(pk, (ms0.outputs.length : Int))])
    (hrec : ms0.totalReceived = ms0.predecessors.map (fun e => (e.1, 0)))
    (hsh : s0.shufs = []) (hse : s0.sent = []) : GInv s0 n pk ms0 := by
  have hr : recvOf ms0 pk = 0 := by simp [recvOf, hrec, hpred, GoMap.lookup]
  refine ⟨hpred, by omega, by omega, ?_, by simp [hsh], by simp [hse], by simp [hse]⟩
  intro h1 h2
  rw [hr] at h1
  omega

theorem exec_ginv {env : Env} {s0 s : State} {as : List Action} (hI : Inv env s0) (hx : exec env s0 as = some s)
    (hc : s.crashed = false) {n : Str} {pk : Str × Str} {ms0 : MixState} (hn : s0.states n = some ms0)
    (hadd : ms0.added = []) (hh : s0.holder = none) (g0 : GInv s0 n pk ms0) :
    ∃ ms, s.states n = some ms ∧ ms.outputs.length = ms0.outputs.length ∧ ms.isLastLayer = ms0.isLastLayer ∧
      ms.added ++ restFor s n = delivered as n ∧ GInv s n pk ms ∧
      recvOf ms pk + (restFrom s pk n).length = recvOf ms0 pk + (deliveredFrom as pk n).length := by
  induction as using List.reverseRecOn generalizing s with
  | nil =>
    cases hx
    exact ⟨ms0, hn, rfl, rfl, by simp [hadd, restFor, hh, delivered], g0, by simp [restFrom, hh, deliveredFrom]⟩
  | append_singleton as a ih =>
    obtain ⟨s1, h1, h2⟩ := exec_snoc hx
    obtain ⟨ms1, hs1, hl1, hla1, hd1, hg1, hr1⟩ := ih h1 (step_not_crashed h2)
    have hR := stepR_of_step h2 hc
    obtain ⟨ms2, hs2, hl2, _, hla2, hd2, _⟩ := stepR_mix hR hs1
    refine ⟨ms2, hs2, hl2.trans hl1, hla2.trans hla1, by rw [hd2, hd1, delivered_snoc], ?_, ?_⟩
    · exact hg1.step (exec_inv hI h1 (step_not_crashed h2)) hR hs1 hs2
    · have := stepR_recv hR hs1 hs2 pk
      rw [deliveredFrom_snoc, List.length_append]
      push_cast
      omega

/-! ### Exactly one emission -/

def spawned (s : State) (n : Str) : Nat :=
  (s.shufs.filter (fun f => f.mix = n)).length + (s.sent.filter (fun b => b.logicalSender = n)).length

open Classical in
theorem spawned_step {env : Env} {s s' : State} {a : Action} {n : Str} {pk : Str × Str} {ms ms' : MixState}
    (h : StepR env s a s') (hn : s.states n = some ms) (hn' : s'.states n = some ms')
    (g : GInv s n pk ms) (hlast : ms.isLastLayer = false) (hpos : 0 < ms.outputs.length)
    (hle : ms'.added.length ≤ ms'.outputs.length)
    (hrest : ∀ hd, s.holder = some hd → ∀ m ∈ hd.rest, m.logicalReceiver = n → m.messages ≠ [])
    (hs : spawned s n = if recvOf ms pk = ms.outputs.length ∧ ¬ curIs s n then 1 else 0) :
    spawned s' n = if recvOf ms' pk = ms'.outputs.length ∧ ¬ curIs s' n then 1 else 0 := by
  have hcur_none : ∀ rest, s.holder = some ⟨none, rest⟩ → ¬ curIs s n := by
    rintro rest h ⟨ts, r, hh⟩; rw [h] at hh; cases hh
  cases h with
  | @call msgs h =>
    have e : some ms = some ms' := hn.symm.trans hn'; cases e
    have h1 : ¬ curIs s n := by rintro ⟨ts, r, hh⟩; rw [h] at hh; cases hh
    have h2 : ¬ curIs { s with holder := some ⟨none, msgs⟩ } n := by rintro ⟨ts, r, hh⟩; cases hh
    simp only [h1, h2] at hs ⊢
    exact hs
  | release h =>
    have e : some ms = some ms' := hn.symm.trans hn'; cases e
    have h1 := hcur_none _ h
    have h2 : ¬ curIs { s with holder := none } n := by rintro ⟨ts, r, hh⟩; cases hh
    simp only [h1, h2] at hs ⊢
    exact hs
  | @handle m rest ms0 h hm =>
    have h1 := hcur_none _ h
    by_cases he : n = m.logicalReceiver
    · subst he
      rw [hm] at hn; cases hn
      have hne := hrest _ h m (by simp) rfl
      simp only [State.set, if_true, Option.some.injEq] at hn'
      subst hn'
      have hlt : recvOf ms pk ≠ ms.outputs.length := by
        have h3 := g.radd
        simp only [handleNewInputs, List.length_append] at hle
        have : 0 < m.messages.length := List.length_pos_iff.2 hne
        omega
      have h2 : curIs { s.set m.logicalReceiver (handleNewInputs ms m).1 with
        holder := some ⟨some (m.logicalReceiver, (handleNewInputs ms m).2), rest⟩ } m.logicalReceiver := ⟨_, _, rfl⟩
      rw [if_neg (by simp [h2])]
      rw [if_neg (by simp [hlt])] at hs
      exact hs
    · simp only [State.set, he, if_false] at hn'
      have e : some ms = some ms' := hn.symm.trans hn'; cases e
      have h2 : ¬ curIs { s.set m.logicalReceiver (handleNewInputs ms0 m).1 with
        holder := some ⟨some (m.logicalReceiver, (handleNewInputs ms0 m).2), rest⟩ } n := by
        rintro ⟨ts, r, hh⟩
        simp only [Option.some.injEq, AddOp.mk.injEq, Prod.mk.injEq] at hh
        exact he hh.1.1.symm
      simp only [h1, h2] at hs ⊢
      exact hs
  | @push n0 t ts rest h hcl hq =>
    have e : some ms = some ms' := hn.symm.trans hn'; cases e
    have : curIs { s with queue := s.queue ++ [t], holder := some ⟨some (n0, ts), rest⟩ } n ↔ curIs s n := by
      constructor
      · rintro ⟨a, b, hh⟩; cases hh; exact ⟨_, _, h⟩
      · rintro ⟨a, b, hh⟩; rw [h] at hh; cases hh; exact ⟨_, _, rfl⟩
    simp only [this]
    exact hs
  | @doneYes n0 rest ms0 h hm hd =>
    have e : some ms = some ms' := hn.symm.trans hn'; cases e
    have h2 : ¬ curIs { s with shufs := s.shufs ++ [⟨n0, false⟩], holder := some ⟨none, rest⟩ } n := by
      rintro ⟨ts, r, hh⟩; cases hh
    by_cases he : n = n0
    · subst he
      rw [hm] at hn; cases hn
      have hr : recvOf ms pk = ms.outputs.length := (isDone_single g.preds).1 hd
      have h1 : curIs s n := ⟨_, _, h⟩
      rw [if_neg (by simp [h1])] at hs
      rw [if_pos ⟨hr, h2⟩]
      simp only [spawned, List.filter_append, List.length_append] at hs ⊢
      simp
      omega
    · have h1 : ¬ curIs s n := by rintro ⟨ts, r, hh⟩; rw [h] at hh; cases hh; exact he rfl
      simp only [h1, h2] at hs ⊢
      rw [← hs]
      simp [spawned, List.filter_append, Ne.symm he]
  | @doneNo n0 rest ms0 h hm hd =>
    have e : some ms = some ms' := hn.symm.trans hn'; cases e
    have h2 : ¬ curIs { s with holder := some ⟨none, rest⟩ } n := by
      rintro ⟨ts, r, hh⟩; cases hh
    by_cases he : n = n0
    · subst he
      rw [hm] at hn; cases hn
      have hr : recvOf ms pk ≠ ms.outputs.length := by
        intro hr; rw [(isDone_single g.preds).2 hr] at hd; cases hd
      rw [if_neg (by simp [hr])] at hs ⊢
      exact hs
    · have h1 : ¬ curIs s n := by rintro ⟨ts, r, hh⟩; rw [h] at hh; cases hh; exact he rfl
      simp only [h1, h2] at hs ⊢
      exact hs
  | @finish i t ms0 ht hd hm h0 h1 hw =>
    by_cases he : n = t.mix
    · subst he; rw [hm] at hn; cases hn
      simp only [State.set, if_true, Option.some.injEq] at hn'
      subst hn'
      simpa [spawned, State.set, recvOf, curIs] using hs
    · simp only [State.set, he, if_false] at hn'
      have e : some ms = some ms' := hn.symm.trans hn'; cases e
      exact hs
  | @again i words n0 ms0 hi hm hw ho =>
    have e : some ms = some ms' := hn.symm.trans hn'; cases e
    refine Eq.trans ?_ hs
    simp only [spawned]
    congr 1
    by_cases he : n = n0
    · subst he; rw [hm] at hn; cases hn
      simp only [hlast]
      have hp := perm_eraseIdx s.shufs i _ hi
      have hp2 := perm_eraseIdx (s.shufs.set i ⟨n, true⟩) i ⟨n, true⟩ (by
        obtain ⟨hi', _⟩ := List.getElem?_eq_some_iff.1 hi; simp [hi'])
      rw [List.eraseIdx_set_eq] at hp2
      have l1 := (hp.filter (fun f => f.mix = n)).length_eq
      have l2 := (hp2.filter (fun f => f.mix = n)).length_eq
      simp at l1 l2
      simp [l1, l2]
    · split
      · have hp := perm_eraseIdx s.shufs i _ hi
        have l1 := (hp.filter (fun f => f.mix = n)).length_eq
        rw [List.filter_cons_of_neg (by simpa using Ne.symm he)] at l1
        exact l1.symm
      · have hp := perm_eraseIdx s.shufs i _ hi
        have hp2 := perm_eraseIdx (s.shufs.set i ⟨n0, true⟩) i ⟨n0, true⟩ (by
          obtain ⟨hi', _⟩ := List.getElem?_eq_some_iff.1 hi; simp [hi'])
        rw [List.eraseIdx_set_eq] at hp2
        have l1 := (hp.filter (fun f => f.mix = n)).length_eq
        have l2 := (hp2.filter (fun f => f.mix = n)).length_eq
        rw [List.filter_cons_of_neg (by simpa using Ne.symm he)] at l1 l2
        rw [l1, l2]
  | @shuffle i words n0 ms0 out hi hm hw ho hout =>
    have hgoal : spawned (State.set { s with shufs := (if ms0.isLastLayer then s.shufs.eraseIdx i else s.shufs.set i ⟨n0, true⟩) } n0
            ({ ms0 with outputs := out, shuffleWait := ms0.shuffleWait - 1, once := true, shuffles := ms0.shuffles + 1 })) n
            = spawned s n := by
      simp only [spawned, State.set]
      congr 1
      by_cases he : n = n0
      · subst he; rw [hm] at hn; cases hn
        simp only [hlast]
        have hp := perm_eraseIdx s.shufs i _ hi
        have hp2 := perm_eraseIdx (s.shufs.set i ⟨n, true⟩) i ⟨n, true⟩ (by
          obtain ⟨hi', _⟩ := List.getElem?_eq_some_iff.1 hi; simp [hi'])
        rw [List.eraseIdx_set_eq] at hp2
        have l1 := (hp.filter (fun f => f.mix = n)).length_eq
        have l2 := (hp2.filter (fun f => f.mix = n)).length_eq
        simp at l1 l2
        simp [l1, l2]
      · split
        · have hp := perm_eraseIdx s.shufs i _ hi
          have l1 := (hp.filter (fun f => f.mix = n)).length_eq
          rw [List.filter_cons_of_neg (by simpa using Ne.symm he)] at l1
          exact l1.symm
        · have hp := perm_eraseIdx s.shufs i _ hi
          have hp2 := perm_eraseIdx (s.shufs.set i ⟨n0, true⟩) i ⟨n0, true⟩ (by
            obtain ⟨hi', _⟩ := List.getElem?_eq_some_iff.1 hi; simp [hi'])
          rw [List.eraseIdx_set_eq] at hp2
          have l1 := (hp.filter (fun f => f.mix = n)).length_eq
          have l2 := (hp2.filter (fun f => f.mix = n)).length_eq
          rw [List.filter_cons_of_neg (by simpa using Ne.symm he)] at l1 l2
          rw [l1, l2]
    rw [hgoal, hs]
    by_cases he : n = n0
    · subst he; rw [hm] at hn; cases hn
      simp only [State.set, if_true, Option.some.injEq] at hn'
      subst hn'
      simp only [recvOf, curIs, State.set, hout.length_eq]; congr
    · simp only [State.set, he, if_false] at hn'
      have e : some ms = some ms' := hn.symm.trans hn'; cases e
      rfl
  | @send i n0 ms0 hi hm hw hsw hcap =>
    have e : some ms = some ms' := hn.symm.trans hn'; cases e
    refine Eq.trans ?_ hs
    simp only [spawned, List.filter_append, List.length_append]
    have hp := perm_eraseIdx s.shufs i _ hi
    have l1 := (hp.filter (fun f => f.mix = n)).length_eq
    by_cases he : n0 = n
    · simp [he] at l1 ⊢
      omega
    · rw [List.filter_cons_of_neg (by simpa using he)] at l1
      rw [l1]; simp [he]
  | take hq hb => have e : some ms = some ms' := hn.symm.trans hn'; cases e; exact hs
  | recv hq => have e : some ms = some ms' := hn.symm.trans hn'; cases e; exact hs
  | close hcl => have e : some ms = some ms' := hn.symm.trans hn'; cases e; exact hs

end Resmix.Mixer
