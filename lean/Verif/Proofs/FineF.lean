import Verif.Proofs.FineE
set_option autoImplicit false
namespace Resmix.MixerFine
open Resmix.Mixer (Messages Task Env MixState AddOp Shuf MixOutput Action mkTasks)
open Resmix.Race

theorem R.hold_eq {env : Env} {last : Str → Bool} {f : State} {c : Mixer.State} (h : R env last f c) {g : Nat} {pc : HPc} {rest : List Messages}
    (hh : f.holder = some (g, pc, rest)) : c.holder = some (holdC pc rest) := by
  rw [h.holder, hh]; rfl

theorem isDone_iff {ms : MixState} {M : Mem} (h1 : ms.predecessors = M.predecessors) (h2 : ms.totalReceived = M.totalReceived) :
    Mixer.isDone ms = true ↔ ∀ e ∈ M.predecessors, e.2 = (GoMap.lookup M.totalReceived e.1).getD 0 := by
  simp [Mixer.isDone, h1, h2]

set_option maxHeartbeats 2000000 in
theorem sim_add {env : Env} {last : Str → Bool} {f f' : State} {c : Mixer.State} {evs : List Ev} (h : R env last f c) (ht : TInv f) (h0 : f.crashed = false)
    (hs : AddStep env f evs f') : ∃ calls, f'.calls = f.calls ++ calls ∧ Match env last f' c calls := by
  cases hs with
  | lock ms hh =>
    refine ⟨[ms], rfl, [.call ms], { c with holder := some ⟨none, ms⟩ }, ?_, ?_, ?_, rfl, by simp⟩
    · simp [Mixer.exec, Mixer.step, h.crashed, h.holder, hh]
    · exact h.crashed.trans h0.symm
    · intro _
      exact { h with
        holder := rfl
        mix := fun n M hM => by have := h.mix n M hM; rw [hh] at this; exact this
        more := fun g pc rest hx => by cases hx; trivial }
  | @unlock g hh =>
    refine ⟨[], by simp, .one (a := .addStep) (c' := { c with holder := Option.none }) ?_ (h.crashed.trans h0.symm) ?_ (by simp) (by simp)⟩
    · simp [Mixer.step, h.crashed, Mixer.addStep, h.hold_eq hh, holdC]
    · intro _
      exact { h with
        holder := rfl
        mix := fun n M hM => by have := h.mix n M hM; rw [hh] at this; exact this
        more := fun g pc rest hx => by cases hx }
  | @unknown g m rest hh hn =>
    refine ⟨[], by simp [State.crash], .one (a := .addStep) (c' := c.crash) ?_ rfl ?_ (by simp) (by simp)⟩
    · simp [Mixer.step, h.crashed, Mixer.addStep, h.hold_eq hh, holdC, h.none _ hn]
    · intro hc; simp [State.crash] at hc
  | @batch g m rest hh hn =>
    obtain ⟨M, hM⟩ := Option.ne_none_iff_exists'.1 hn
    obtain ⟨ms, hms, -⟩ := h.mix _ _ hM
    refine ⟨[], by simp, .stutter (h.holdMove ?_ ?_ ?_) h0⟩
    · rw [h.hold_eq hh]; rfl
    · intro n; rw [hh]; simp [pendN]
    · intro g pc r e; cases e; exact ⟨[], ms, rfl, hms, rfl⟩
  | @index g m o os acc rest M hh hM =>
    refine ⟨[], by simp, .stutter (h.holdMove ?_ ?_ ?_) h0⟩
    · rw [h.hold_eq hh]; rfl
    · intro n; rw [hh]; simp [pendN]
    · intro g pc r e; cases e; have := h.more _ _ _ hh; exact this
  | @load g m o os acc i rest M hh hM =>
    refine ⟨[], by simp, .stutter (h.holdMove ?_ ?_ ?_) h0⟩
    · rw [h.hold_eq hh]; rfl
    · intro n; rw [hh]; simp [pendN]
    · intro g pc r e; cases e; have := h.more _ _ _ hh; exact this
  | @store g m o os acc i v rest M hh hM =>
    obtain ⟨⟨M', hM', hi, hv⟩, hta⟩ := ht.hold _ _ _ hh
    rw [hM] at hM'; cases hM'
    obtain ⟨pre, ms, hpre, hms, hacc⟩ := h.more _ _ _ hh
    obtain ⟨ms', hms', hmr⟩ := h.mix _ _ hM
    rw [hms] at hms'; cases hms'
    have hpd : pendN f.holder m.logicalReceiver = acc.length := by rw [hh]; simp [pendN]
    rw [hpd] at hmr
    refine ⟨[], by simp, .stutter ?_ h0⟩
    exact { h with
      holder := by rw [h.hold_eq hh]; rfl
      none := fun n hn => by
        simp only [set_mixes] at hn
        split at hn
        · cases hn
        · exact h.none n hn
      mix := fun n N hN => by
        simp only [set_mixes] at hN
        split at hN
        · next e =>
          cases hN; subst e
          refine ⟨ms, hms, ?_⟩
          have : pendN (some (g, HPc.idx m os (acc ++ [⟨m.logicalReceiver, o, i⟩]), rest)) m.logicalReceiver = acc.length + 1 := by simp [pendN]
          dsimp only
          rw [this]
          exact { hmr with tw := by have := hmr.tw; show _ = v - 1 + ((acc.length + 1 : Nat) : Int); push_cast; omega }
        · next e =>
          have := h.mix n N hN
          have hp : pendN (some (g, HPc.idx m os (acc ++ [⟨m.logicalReceiver, o, i⟩]), rest)) n = pendN f.holder n := by
            have e' : ¬ m.logicalReceiver = n := fun e' => e e'.symm
            rw [hh]; simp [pendN, e']
          dsimp only
          rw [hp]; exact this
      more := fun g pc r e => by
        cases e
        refine ⟨pre ++ [o], ms, by simp [hpre], hms, ?_⟩
        rw [mkTasks_append, hacc]
        have h1 := hmr.tw
        have h2 := mkTasks_length m.logicalReceiver ms.totalWorkload pre
        rw [← hacc] at h2
        simp only [mkTasks, List.append_cancel_left_eq, List.cons.injEq, and_true]
        congr 1
        omega
      lastOk := fun n N hN => by
        simp only [set_mixes] at hN
        split at hN
        · next e => cases hN; rw [e]; exact h.lastOk _ M hM
        · exact h.lastOk n N hN
      cont := fun o ho => by
        obtain ⟨N, hN, hc⟩ := h.cont o ho
        simp only [set_mixes]
        by_cases e : o.logicalSender = m.logicalReceiver
        · rw [e, hM] at hN; cases hN
          exact ⟨_, if_pos e, hc⟩
        · exact ⟨N, by rw [if_neg e]; exact hN, hc⟩ }
  | @count g m acc rest M hh hM =>
    obtain ⟨pre, ms, hpre, hms, hacc⟩ := h.more _ _ _ hh
    refine ⟨[], by simp, .stutter (h.holdMove ?_ ?_ ?_) h0⟩
    · rw [h.hold_eq hh]; rfl
    · intro n; rw [hh]; simp [pendN]
    · intro g pc r e; cases e
      refine ⟨ms, hms, ?_⟩
      rw [List.append_nil] at hpre; rw [hpre]; exact hacc
  | @counted g m acc v rest M hh hM =>
    obtain ⟨⟨M', hM', hv⟩, hta⟩ := ht.hold _ _ _ hh
    rw [hM] at hM'; cases hM'
    obtain ⟨ms, hms, hacc⟩ := h.more _ _ _ hh
    obtain ⟨ms', hms', hmr⟩ := h.mix _ _ hM
    rw [hms] at hms'; cases hms'
    have hpd : pendN f.holder m.logicalReceiver = acc.length := by rw [hh]; simp [pendN]
    rw [hpd] at hmr
    have hal : acc.length = m.messages.length := by rw [hacc]; exact mkTasks_length ..
    refine ⟨[], by simp, .one (a := .addStep)
      (c' := { c.set m.logicalReceiver (Mixer.handleNewInputs ms m).1 with holder := some ⟨some (m.logicalReceiver, (Mixer.handleNewInputs ms m).2), rest⟩ })
      ?_ (h.crashed.trans h0.symm) ?_ (by simp) (by simp)⟩
    · simp [Mixer.step, h.crashed, Mixer.addStep, h.hold_eq hh, holdC, hms]
    · intro _
      exact { h with
        holder := by show some _ = some _; simp [holdC, Mixer.handleNewInputs, hacc]
        none := fun n hn => by
          simp only [set_mixes] at hn
          split at hn
          · cases hn
          · next e => simp only [Mixer.State.set, if_neg e]; exact h.none n hn
        mix := fun n N hN => by
          simp only [set_mixes] at hN
          split at hN
          · next e =>
            cases hN; subst e
            refine ⟨(Mixer.handleNewInputs ms m).1, by simp [Mixer.State.set], ?_⟩
            refine ⟨hmr.pred, hmr.last, ?_, ?_, hmr.wg, hmr.sw, hmr.once, hmr.outs, hmr.outsPut⟩
            · simp [Mixer.handleNewInputs, hmr.recd, hv]
            · have := hmr.tw
              simp only [Mixer.handleNewInputs, pendN]
              push_cast
              omega
          · next e =>
            obtain ⟨ns, hns, hr⟩ := h.mix n N hN
            refine ⟨ns, by simp only [Mixer.State.set, if_neg e]; exact hns, ?_⟩
            have hp : pendN f.holder n = 0 := by
              have e' : ¬ m.logicalReceiver = n := fun e' => e e'.symm
              rw [hh]; simp [pendN, e']
            rw [hp] at hr
            exact hr
        more := fun g pc r e => by cases e; trivial
        lastOk := fun n N hN => by
          simp only [set_mixes] at hN
          split at hN
          · next e => cases hN; rw [e]; exact h.lastOk _ M hM
          · exact h.lastOk n N hN
        cont := fun o ho => by
          obtain ⟨N, hN, hc⟩ := h.cont o ho
          simp only [set_mixes]
          by_cases e : o.logicalSender = m.logicalReceiver
          · rw [e, hM] at hN; cases hN
            exact ⟨_, if_pos e, hc⟩
          · exact ⟨N, by rw [if_neg e]; exact hN, hc⟩ }
  | @pushClosed g n t ts rest hh hcl =>
    refine ⟨[], by simp [State.crash], .one (a := .addStep) (c' := c.crash) ?_ rfl ?_ (by simp) (by simp)⟩
    · simp [Mixer.step, h.crashed, Mixer.addStep, h.hold_eq hh, holdC, h.closed, hcl]
    · intro hc; simp [State.crash] at hc
  | @push g n t ts rest hh hcl hcap =>
    refine ⟨[], by simp, .one (a := .addStep) (c' := { c with queue := c.queue ++ [t], holder := some ⟨some (n, ts), rest⟩ }) ?_ (h.crashed.trans h0.symm) ?_ (by simp) (by simp)⟩
    · simp [Mixer.step, h.crashed, Mixer.addStep, h.hold_eq hh, holdC, h.closed, hcl, h.queue, hcap]
    · intro _
      exact { h with
        queue := by show c.queue ++ [t] = _; rw [h.queue]
        holder := rfl
        mix := fun n M hM => by have := h.mix n M hM; rw [hh] at this; exact this
        more := fun g pc rest hx => by cases hx; trivial }
  | @check g n rest M order hh hM ho =>
    refine ⟨[], by simp, .stutter (h.holdMove ?_ ?_ ?_) h0⟩
    · rw [h.hold_eq hh]; rfl
    · intro n; rw [hh]; simp [pendN]
    · intro g pc r e; cases e
      exact ⟨M, [], hM, by simpa using ho, by simp⟩
  | @same g n k v todo rest M hh hM hv =>
    obtain ⟨M', pre, hM', hp, hall⟩ := h.more _ _ _ hh
    rw [hM] at hM'; cases hM'
    refine ⟨[], by simp, .stutter (h.holdMove ?_ ?_ ?_) h0⟩
    · rw [h.hold_eq hh]; rfl
    · intro n; rw [hh]; simp [pendN]
    · intro g pc r e; cases e
      refine ⟨M, pre ++ [(k, v)], hM, by simpa using hp, ?_⟩
      intro e he
      rcases List.mem_append.1 he with he | he
      · exact hall e he
      · simp at he; subst he; exact hv
  | @differs g n k v todo rest M hh hM hv =>
    obtain ⟨M', pre, hM', hp, hall⟩ := h.more _ _ _ hh
    rw [hM] at hM'; cases hM'
    obtain ⟨ms, hms, hmr⟩ := h.mix _ _ hM
    have hnd : ¬ Mixer.isDone ms = true := by
      rw [isDone_iff hmr.pred hmr.recd]
      intro hall'
      exact hv (hall' (k, v) (hp.mem_iff.1 (by simp)))
    refine ⟨[], by simp, .one (a := .addStep) (c' := { c with holder := some ⟨none, rest⟩ }) ?_ (h.crashed.trans h0.symm) ?_ (by simp) (by simp)⟩
    · simp [Mixer.step, h.crashed, Mixer.addStep, h.hold_eq hh, holdC, hms, hnd]
    · intro _
      exact { h with
        holder := rfl
        mix := fun n M hM => by have := h.mix n M hM; rw [hh] at this; exact this
        more := fun g pc rest hx => by cases hx; trivial }
  | @spawn g n rest hh =>
    obtain ⟨M, pre, hM, hp, hall⟩ := h.more _ _ _ hh
    obtain ⟨ms, hms, hmr⟩ := h.mix _ _ hM
    have hd : Mixer.isDone ms = true := by
      rw [isDone_iff hmr.pred hmr.recd]
      intro e he
      exact hall e (by simpa using hp.mem_iff.2 he)
    refine ⟨[], by simp, .one (a := .addStep) (c' := { c with shufs := c.shufs ++ [⟨n, false⟩], holder := some ⟨none, rest⟩ }) ?_ (h.crashed.trans h0.symm) ?_ (by simp) (by simp)⟩
    · simp [Mixer.step, h.crashed, Mixer.addStep, h.hold_eq hh, holdC, hms, hd]
    · intro _
      exact { h with
        holder := rfl
        mix := fun n' N hN => by
          obtain ⟨ns, hns, hr⟩ := h.mix n' N hN
          rw [hh] at hr
          refine ⟨ns, hns, { hr with outs := fun hno => hr.outs fun g o p w i he => hno g o p w i (List.mem_append_left _ he), outsPut := ?_ }⟩
          intro g' o p w i he
          rcases List.mem_append.1 he with he | he
          · exact hr.outsPut _ _ _ _ _ he
          · simp at he
        more := fun g pc rest hx => by cases hx; trivial
        shufs := by
          show c.shufs ++ [_] = (f.shufs ++ [_]).filterMap _
          rw [List.filterMap_append, h.shufs]; rfl }

end Resmix.MixerFine
