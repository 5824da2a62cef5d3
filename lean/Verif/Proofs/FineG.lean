import Verif.Proofs.FineF
import Mathlib.Data.List.Perm.Subperm
set_option autoImplicit false
namespace Resmix.MixerFine
open Resmix.Mixer (Messages Task Env MixState AddOp Shuf MixOutput Action mkTasks)
open Resmix.Race

theorem split_at {α : Type} {l : List α} {j : Nat} {x : α} (h : l[j]? = some x) :
    ∃ l1 l2, l = l1 ++ x :: l2 ∧ l1.length = j ∧ (∀ y, l.set j y = l1 ++ y :: l2) ∧ l.eraseIdx j = l1 ++ l2 := by
  obtain ⟨hlt, hx⟩ := List.getElem?_eq_some_iff.1 h
  have hl : l = l.take j ++ x :: l.drop (j + 1) := by
    rw [← hx, List.getElem_cons_drop, List.take_append_drop]
  refine ⟨l.take j, l.drop (j + 1), hl, by simp; omega, fun y => ?_, ?_⟩
  · rw [List.set_eq_take_append_cons_drop, if_pos hlt]
  · rw [List.eraseIdx_eq_take_drop_succ]

theorem fm_replace {α β : Type} {f : α → Option β} {l : List α} {j : Nat} {x : α} {a : β} (hj : l[j]? = some x) (hf : f x = some a) :
    ∃ i : Nat, (l.filterMap f)[i]? = some a ∧ (∀ y b, f y = some b → (l.set j y).filterMap f = (l.filterMap f).set i b) ∧
      (∀ y, f y = none → (l.set j y).filterMap f = (l.filterMap f).eraseIdx i) ∧ (l.eraseIdx j).filterMap f = (l.filterMap f).eraseIdx i := by
  obtain ⟨l1, l2, rfl, -, hset, hera⟩ := split_at hj
  refine ⟨(l1.filterMap f).length, ?_, ?_, ?_, ?_⟩
  · rw [List.filterMap_append, List.filterMap_cons_some hf]; simp
  · intro y b hy
    rw [hset, List.filterMap_append, List.filterMap_append, List.filterMap_cons_some hf, List.filterMap_cons_some hy]
    simp
  · intro y hy
    rw [hset, List.filterMap_append, List.filterMap_append, List.filterMap_cons_some hf, List.filterMap_cons_none hy]
    rw [List.eraseIdx_append_of_length_le (Nat.le_refl _)]; simp
  · rw [hera, List.filterMap_append, List.filterMap_append, List.filterMap_cons_some hf]
    rw [List.eraseIdx_append_of_length_le (Nat.le_refl _)]; simp

theorem fm_same {α β : Type} {f : α → Option β} {l : List α} {j : Nat} {x y : α} (hj : l[j]? = some x) (hf : f y = f x) : (l.set j y).filterMap f = l.filterMap f := by
  obtain ⟨l1, l2, rfl, -, hset, -⟩ := split_at hj
  rw [hset, List.filterMap_append, List.filterMap_append, List.filterMap_cons, List.filterMap_cons, hf]

theorem fm_erase_none {α β : Type} {f : α → Option β} {l : List α} {j : Nat} {x : α} (hj : l[j]? = some x) (hf : f x = none) : (l.eraseIdx j).filterMap f = l.filterMap f := by
  obtain ⟨l1, l2, rfl, -, -, hera⟩ := split_at hj
  rw [hera, List.filterMap_append, List.filterMap_append, List.filterMap_cons_none hf]

theorem fm_set_none {α β : Type} {f : α → Option β} {l : List α} {j : Nat} {x : α} (hj : l[j]? = some x) (y : α) (hf : f y = none) :
    (l.set j y).filterMap f = (l.eraseIdx j).filterMap f := by
  obtain ⟨l1, l2, rfl, -, hset, hera⟩ := split_at hj
  rw [hera, hset, List.filterMap_append, List.filterMap_append, List.filterMap_cons_none hf]

theorem countP_set {α : Type} {p : α → Bool} {l : List α} {j : Nat} {x : α} (hj : l[j]? = some x) (y : α) :
    (l.set j y).countP p + (if p x then 1 else 0) = l.countP p + (if p y then 1 else 0) := by
  obtain ⟨l1, l2, rfl, -, hset, -⟩ := split_at hj
  rw [hset]; simp only [List.countP_append, List.countP_cons]; omega

theorem countP_erase {α : Type} {p : α → Bool} {l : List α} {j : Nat} {x : α} (hj : l[j]? = some x) :
    (l.eraseIdx j).countP p + (if p x then 1 else 0) = l.countP p := by
  obtain ⟨l1, l2, rfl, -, -, hera⟩ := split_at hj
  rw [hera]; simp only [List.countP_append, List.countP_cons]; omega

/-- What is written but not signalled is waited for. -/
theorem TInv.wr_le {f : State} (h : TInv f) {n : Str} {M : Mem} (hM : f.mixes n = some M) : ((wrN f.busy n : Nat) : Int) ≤ M.wg := by
  have h1 := h.cnt n M hM
  have h2 : wrN f.busy n ≤ (tasks f).countP (isLive n) := by
    rw [tasks, List.countP_append, List.countP_map]
    refine le_trans ?_ (Nat.le_add_left _ _)
    refine List.countP_mono_left ?_
    rintro ⟨w, t, b⟩ he hp
    simp only [Bool.and_eq_true, decide_eq_true_eq] at hp
    obtain ⟨rfl, hp⟩ := hp
    have := h.bval w t he
    simp [isLive, hp, this]
  have : (0 : Int) ≤ max M.totalWorkload 0 := le_max_right _ _
  omega

theorem TInv.wr_lt {f : State} (h : TInv f) {j w : Nat} {t : Task} {M : Mem} (hj : f.busy[j]? = some (w, t, false)) (hM : f.mixes t.mix = some M) (hi : 0 ≤ t.idx) :
    ((wrN f.busy t.mix : Nat) : Int) + 1 ≤ M.wg := by
  have h1 := h.cnt t.mix M hM
  have h2 : wrN f.busy t.mix + 1 ≤ (tasks f).countP (isLive t.mix) := by
    rw [tasks, List.countP_append, List.countP_map]
    refine le_trans ?_ (Nat.le_add_left _ _)
    have e1 := countP_erase (p := fun e : Nat × Task × Bool => e.2.2 && decide (e.2.1.mix = t.mix)) hj
    have e2 := countP_erase (p := isLive t.mix ∘ fun e : Nat × Task × Bool => e.2.1) hj
    have e3 : (f.busy.eraseIdx j).countP (fun e : Nat × Task × Bool => e.2.2 && decide (e.2.1.mix = t.mix)) ≤
        (f.busy.eraseIdx j).countP (isLive t.mix ∘ fun e : Nat × Task × Bool => e.2.1) := by
      refine List.countP_mono_left ?_
      rintro ⟨w, t', b⟩ he hp
      simp only [Bool.and_eq_true, decide_eq_true_eq] at hp
      obtain ⟨rfl, hp⟩ := hp
      have := h.bval w t' (List.mem_of_mem_eraseIdx he)
      simp [isLive, hp, this]
    rw [if_neg (by simp)] at e1
    rw [if_pos (by simp [isLive, hi])] at e2
    rw [wrN]
    omega
  have : (0 : Int) ≤ max M.totalWorkload 0 := le_max_right _ _
  omega

theorem MR.len {pend wr : Nat} {f : State} (hsi : SInv f) {n : Str} {M : Mem} {ms : MixState} (hM : f.mixes n = some M) (h : MR pend wr f.shufs n M ms) :
    ms.outputs.length = M.outputs.length := by
  by_cases hp : ∃ g o p w i, (g, n, SPc.put o p w i) ∈ f.shufs
  · obtain ⟨g, o, p, w, i, he⟩ := hp
    rw [h.outsPut _ _ _ _ _ he]
    obtain ⟨M', hM', -, -, hl, -⟩ := hsi.ok _ _ _ he
    rw [hM] at hM'; cases hM'; exact hl
  · rw [h.outs fun g o p w i he => hp ⟨g, o, p, w, i, he⟩]

theorem finishTask_crash {env : Env} {c : Mixer.State} {t : Task} (h : env.decrypt t.input = .error .panic ∨
    ∀ ms, c.states t.mix = some ms → ¬ (0 ≤ t.idx ∧ t.idx < ms.outputs.length)) : (Mixer.finishTask env c t).crashed = true := by
  unfold Mixer.finishTask
  split
  · rfl
  · next hne =>
    split
    · rfl
    · next ms hms =>
      rcases h with h | h
      · exact absurd h hne
      · rw [if_neg (h ms hms)]; rfl

set_option maxHeartbeats 2000000 in
theorem sim_work {env : Env} {last : Str → Bool} {f f' : State} {c : Mixer.State} {evs : List Ev} (h : R env last f c) (ht : TInv f) (hsi : SInv f) (h0 : f.crashed = false)
    (hs : WorkStep env f evs f') : f'.calls = f.calls ∧ Match env last f' c [] := by
  cases hs with
  | @take t q w hq hw hidle =>
    have hlen : (f.busy.filterMap unw).length < env.nCPU := by
      have h1 : (f.busy.filterMap unw).length ≤ f.busy.length := List.length_filterMap_le ..
      have h2 : (w :: f.busy.map (·.1)).Nodup := List.nodup_cons.2 ⟨fun hm => by
        obtain ⟨e, he, e1⟩ := List.mem_map.1 hm; exact hidle e he e1, ht.bid⟩
      have h3 : (w :: f.busy.map (·.1)) ⊆ List.range env.nCPU := by
        intro x hx
        rw [List.mem_range]
        rcases List.mem_cons.1 hx with rfl | hx
        · exact hw
        · obtain ⟨e, he, rfl⟩ := List.mem_map.1 hx; exact h.cpu e he
      have := (h2.subperm h3).length_le
      simp at this; omega
    refine ⟨rfl, .one (a := .take) (c' := { c with queue := q, busy := c.busy ++ [t] }) ?_ (h.crashed.trans h0.symm) ?_ (by simp) (by simp)⟩
    · simp [Mixer.step, h.crashed, h.queue, hq, h.busy, hlen]
    · intro _
      exact { h with
        queue := rfl
        busy := by show c.busy ++ [t] = (f.busy ++ [(w, t, false)]).filterMap unw; rw [List.filterMap_append, h.busy]; rfl
        mix := fun n M hM => by
          have := h.mix n M hM
          have e : wrN (f.busy ++ [(w, t, false)]) n = wrN f.busy n := by simp [wrN, List.countP_append]
          dsimp only; rw [e]; exact this
        more := fun g pc rest hh => by
          have := h.more g pc rest hh
          revert this; cases pc <;> exact id
        cpu := fun e he => by
          rcases List.mem_append.1 he with he | he
          · exact h.cpu e he
          · simp at he; subst he; exact hw }
  | @panic j w t hj hp =>
    obtain ⟨i, hi, -⟩ := fm_replace (f := unw) hj (a := t) rfl
    rw [← h.busy] at hi
    refine ⟨rfl, .one (a := .finish i) (c' := Mixer.finishTask env { c with busy := c.busy.eraseIdx i } t) ?_ ?_ ?_ (by simp) (by simp)⟩
    · simp [Mixer.step, h.crashed, hi]
    · exact finishTask_crash (.inl hp)
    · intro hc; simp [State.crash] at hc
  | @range j w t M hj hM hi' =>
    obtain ⟨i, hi, -⟩ := fm_replace (f := unw) hj (a := t) rfl
    rw [← h.busy] at hi
    refine ⟨rfl, .one (a := .finish i) (c' := Mixer.finishTask env { c with busy := c.busy.eraseIdx i } t) ?_ ?_ ?_ (by simp) (by simp)⟩
    · simp [Mixer.step, h.crashed, hi]
    · refine finishTask_crash (.inr fun ms hms => ?_)
      obtain ⟨ms', hms', hmr⟩ := h.mix _ _ hM
      have : ms' = ms := by
        have h1 : c.states t.mix = some ms := hms
        rw [hms'] at h1; cases h1; rfl
      subst this
      rw [hmr.len hsi hM]; exact hi'
    · intro hc; simp [State.crash] at hc
  | @write j w t M hj hp hM hi' =>
    have hwg := ht.wr_lt hj hM hi'.1
    have hwg1 := ht.wg_pos (busy_mem hj) hM hi'.1
    obtain ⟨ms, hms, hmr⟩ := h.mix _ _ hM
    have hno : ∀ g o p w i, (g, t.mix, SPc.put o p w i) ∉ f.shufs := by
      intro g o p w i he
      obtain ⟨M', hM', hr, -⟩ := hsi.ok _ _ _ he
      rw [hM] at hM'; cases hM'
      have := (hsi.mix _ _ hM).wg (by simp [hr])
      omega
    have hout := hmr.outs hno
    obtain ⟨i, hi, -, hers, -⟩ := fm_replace (f := unw) hj (a := t) rfl
    rw [← h.busy] at hi
    have hne : Mixer.finishTask env { c with busy := c.busy.eraseIdx i } t =
        ({ c with busy := c.busy.eraseIdx i } : Mixer.State).set t.mix { ms with outputs := ms.outputs.set t.idx.toNat (Mixer.resultOf env t.input), wg := ms.wg - 1 } := by
      unfold Mixer.finishTask
      split
      · next he => exact absurd he hp
      · show (match c.states t.mix with | none => _ | some ms => _) = _
        rw [hms]
        dsimp only
        rw [if_pos (by rw [hout]; exact hi'), if_neg (by have := hmr.wg; omega)]
    refine ⟨rfl, .one (a := .finish i) (c' := Mixer.finishTask env { c with busy := c.busy.eraseIdx i } t) ?_ ?_ ?_ (by simp) (by simp)⟩
    · simp [Mixer.step, h.crashed, hi]
    · rw [hne]; exact h.crashed.trans h0.symm
    · intro _
      rw [hne]
      have hwr := fun n => countP_set (p := fun e : Nat × Task × Bool => e.2.2 && decide (e.2.1.mix = n)) hj (w, t, true)
      exact { h with
        busy := by
          show c.busy.eraseIdx i = (f.busy.set j (w, t, true)).filterMap unw
          rw [hers (w, t, true) rfl, h.busy]
        none := fun n hn => by
          simp only [set_mixes] at hn
          split at hn
          · cases hn
          · next e => simp only [Mixer.State.set, if_neg e]; exact h.none n hn
        mix := fun n N hN => by
          simp only [set_mixes] at hN
          split at hN
          · next e =>
            cases hN; subst e
            refine ⟨_, if_pos rfl, ⟨hmr.pred, hmr.last, hmr.recd, hmr.tw, ?_, hmr.sw, hmr.once, fun _ => by simp [hout], ?_⟩⟩
            · have h1 := hmr.wg
              have h2 := hwr t.mix
              simp at h2
              show ms.wg - 1 = M.wg - ((wrN (f.busy.set j (w, t, true)) t.mix : Nat) : Int)
              simp only [wrN] at h1 ⊢
              omega
            · intro g o p w i he; exact absurd he (hno g o p w i)
          · next e =>
            obtain ⟨ns, hns, hr⟩ := h.mix n N hN
            refine ⟨ns, by simp only [Mixer.State.set, if_neg e]; exact hns, ?_⟩
            have h2 := hwr n
            have e' : ¬ t.mix = n := fun e' => e e'.symm
            simp [e'] at h2
            have : wrN (f.busy.set j (w, t, true)) n = wrN f.busy n := h2
            dsimp only; rw [this]; exact hr
        more := fun g pc rest hh => by
          have := h.more g pc rest hh
          revert this
          cases pc <;> simp only [More, Mixer.State.set, set_mixes] <;> grind
        lastOk := fun n N hN => by
          simp only [set_mixes] at hN
          split at hN
          · next e => cases hN; rw [e]; exact h.lastOk _ M hM
          · exact h.lastOk n N hN
        cont := fun o ho => by
          obtain ⟨N, hN, hc⟩ := h.cont o ho
          simp only [set_mixes]
          by_cases e : o.logicalSender = t.mix
          · exfalso
            obtain ⟨pre, h1, h2⟩ := h.sent
            have hm : o.logicalSender ∈ f.received ++ f.output := by
              rw [← h2, ← h.output, ← List.map_append, ← h1]
              exact List.mem_map_of_mem ho
            obtain ⟨M', hM', hd, -⟩ := hsi.out _ hm
            rw [e, hM] at hM'; cases hM'
            have := (hsi.mix _ _ hM).wg (by simp [hd])
            omega
          · exact ⟨N, by rw [if_neg e]; exact hN, hc⟩
        cpu := fun e he => by
          rcases List.mem_or_eq_of_mem_set he with he | rfl
          · exact h.cpu e he
          · have := h.cpu _ (List.mem_of_getElem? hj); exact this }
  | @negative j w t M hj hM hg =>
    exfalso
    have := ht.wg_pos (busy_mem hj) hM (ht.bval _ _ (List.mem_of_getElem? hj))
    omega
  | @done j w t M hj hM hg =>
    obtain ⟨ms, hms, hmr⟩ := h.mix _ _ hM
    have hwr := fun n => countP_erase (p := fun e : Nat × Task × Bool => e.2.2 && decide (e.2.1.mix = n)) hj
    refine ⟨rfl, .stutter ?_ h0⟩
    exact { h with
      busy := by
        rw [h.busy]; exact (fm_erase_none hj rfl).symm
      none := fun n hn => by
        simp only [set_mixes] at hn
        split at hn
        · cases hn
        · exact h.none n hn
      mix := fun n N hN => by
        simp only [set_mixes] at hN
        split at hN
        · next e =>
          cases hN; subst e
          refine ⟨ms, hms, { hmr with wg := ?_ }⟩
          have h1 := hmr.wg
          have h2 := hwr t.mix
          simp at h2
          show ms.wg = M.wg - 1 - ((wrN (f.busy.eraseIdx j) t.mix : Nat) : Int)
          simp only [wrN] at h1 ⊢
          omega
        · next e =>
          have hr := h.mix n N hN
          have h2 := hwr n
          have e' : ¬ t.mix = n := fun e' => e e'.symm
          simp [e'] at h2
          have : wrN (f.busy.eraseIdx j) n = wrN f.busy n := h2
          dsimp only; rw [this]; exact hr
      more := fun g pc rest hh => by
        have := h.more g pc rest hh
        revert this
        cases pc <;> simp only [More, set_mixes] <;> grind
      lastOk := fun n N hN => by
        simp only [set_mixes] at hN
        split at hN
        · next e => cases hN; rw [e]; exact h.lastOk _ M hM
        · exact h.lastOk n N hN
      cont := fun o ho => by
        obtain ⟨N, hN, hc⟩ := h.cont o ho
        simp only [set_mixes]
        by_cases e : o.logicalSender = t.mix
        · rw [e, hM] at hN; cases hN
          exact ⟨_, if_pos e, hc⟩
        · exact ⟨N, by rw [if_neg e]; exact hN, hc⟩
      cpu := fun e he => h.cpu e (List.mem_of_mem_eraseIdx he) }

end Resmix.MixerFine
