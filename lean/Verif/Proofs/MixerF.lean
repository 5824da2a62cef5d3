import Verif.Proofs.MixerE
set_option autoImplicit false
/-
Mixes with any number of predecessors.
-/
namespace Resmix.Mixer

open Classical in
theorem spawned_step_all {env : Env} {s s' : State} {a : Action} {n : Str} {ms ms' : MixState}
    (h : StepR env s a s') (hn : s.states n = some ms) (hn' : s'.states n = some ms')
    (hfull : isDone ms = true → ms.outputs.length ≤ ms.added.length) (hlast : ms.isLastLayer = false)
    (hle : ms'.added.length ≤ ms'.outputs.length)
    (hrest : ∀ hd, s.holder = some hd → ∀ m ∈ hd.rest, m.logicalReceiver = n → m.messages ≠ [])
    (hs : spawned s n = if isDone ms = true ∧ ¬ curIs s n then 1 else 0) :
    spawned s' n = if isDone ms' = true ∧ ¬ curIs s' n then 1 else 0 := by
  have hcur_none : ∀ rest, s.holder = some ⟨none, rest⟩ → ¬ curIs s n := by
    rintro rest h ⟨ts, r, hh⟩; rw [h] at hh; cases hh
  cases h with
  | @call msgs h =>
    have e : some ms = some ms' := hn.symm.trans hn'; cases e
    have h1 : ¬ curIs s n := by rintro ⟨ts, r, hh⟩; rw [h] at hh; cases hh
    have h2 : ¬ curIs { s with holder := some ⟨none, msgs⟩ } n := by rintro ⟨ts, r, hh⟩; cases hh
    simp only [h1, h2] at hs ⊢
    exact hs
  | release h =>
    have e : some ms = some ms' := hn.symm.trans hn'; cases e
    have h1 := hcur_none _ h
    have h2 : ¬ curIs { s with holder := none } n := by rintro ⟨ts, r, hh⟩; cases hh
    simp only [h1, h2] at hs ⊢
    exact hs
  | @handle m rest ms0 h hm =>
    have h1 := hcur_none _ h
    by_cases he : n = m.logicalReceiver
    · subst he
      rw [hm] at hn; cases hn
      have hne := hrest _ h m (by simp) rfl
      simp only [State.set, if_true, Option.some.injEq] at hn'
      subst hn'
      have hlt : ¬ isDone ms = true := by
        intro h3
        have h3 := hfull h3
        simp only [handleNewInputs, List.length_append] at hle
        have : 0 < m.messages.length := List.length_pos_iff.2 hne
        omega
      have h2 : curIs { s.set m.logicalReceiver (handleNewInputs ms m).1 with
        holder := some ⟨some (m.logicalReceiver, (handleNewInputs ms m).2), rest⟩ } m.logicalReceiver := ⟨_, _, rfl⟩
      rw [if_neg (by simp [h2])]
      rw [if_neg (by simp [hlt])] at hs
      exact hs
    · simp only [State.set, he, if_false] at hn'
      have e : some ms = some ms' := hn.symm.trans hn'; cases e
      have h2 : ¬ curIs { s.set m.logicalReceiver (handleNewInputs ms0 m).1 with
        holder := some ⟨some (m.logicalReceiver, (handleNewInputs ms0 m).2), rest⟩ } n := by
        rintro ⟨ts, r, hh⟩
        simp only [Option.some.injEq, AddOp.mk.injEq, Prod.mk.injEq] at hh
        exact he hh.1.1.symm
      simp only [h1, h2] at hs ⊢
      exact hs
  | @push n0 t ts rest h hcl hq =>
    have e : some ms = some ms' := hn.symm.trans hn'; cases e
    have : curIs { s with queue := s.queue ++ [t], holder := some ⟨some (n0, ts), rest⟩ } n ↔ curIs s n := by
      constructor
      · rintro ⟨a, b, hh⟩; cases hh; exact ⟨_, _, h⟩
      · rintro ⟨a, b, hh⟩; rw [h] at hh; cases hh; exact ⟨_, _, rfl⟩
    simp only [this]
    exact hs
  | @doneYes n0 rest ms0 h hm hd =>
    have e : some ms = some ms' := hn.symm.trans hn'; cases e
    have h2 : ¬ curIs { s with shufs := s.shufs ++ [⟨n0, false⟩], holder := some ⟨none, rest⟩ } n := by
      rintro ⟨ts, r, hh⟩; cases hh
    by_cases he : n = n0
    · subst he
      rw [hm] at hn; cases hn
      have hr : isDone ms = true := hd
      have h1 : curIs s n := ⟨_, _, h⟩
      rw [if_neg (by simp [h1])] at hs
      rw [if_pos ⟨hr, h2⟩]
      simp only [spawned, List.filter_append, List.length_append] at hs ⊢
      simp
      omega
    · have h1 : ¬ curIs s n := by rintro ⟨ts, r, hh⟩; rw [h] at hh; cases hh; exact he rfl
      simp only [h1, h2] at hs ⊢
      rw [← hs]
      simp [spawned, List.filter_append, Ne.symm he]
  | @doneNo n0 rest ms0 h hm hd =>
    have e : some ms = some ms' := hn.symm.trans hn'; cases e
    have h2 : ¬ curIs { s with holder := some ⟨none, rest⟩ } n := by
      rintro ⟨ts, r, hh⟩; cases hh
    by_cases he : n = n0
    · subst he
      rw [hm] at hn; cases hn
      have hr : ¬ isDone ms = true := by
        intro hr; rw [hr] at hd; cases hd
      rw [if_neg (by simp [hr])] at hs ⊢
      exact hs
    · have h1 : ¬ curIs s n := by rintro ⟨ts, r, hh⟩; rw [h] at hh; cases hh; exact he rfl
      simp only [h1, h2] at hs ⊢
      exact hs
  | @finish i t ms0 ht hd hm h0 h1 hw =>
    by_cases he : n = t.mix
    · subst he; rw [hm] at hn; cases hn
      simp only [State.set, if_true, Option.some.injEq] at hn'
      subst hn'
      simpa [spawned, State.set, isDone, curIs] using hs
    · simp only [State.set, he, if_false] at hn'
      have e : some ms = some ms' := hn.symm.trans hn'; cases e
      exact hs
  | @again i words n0 ms0 hi hm hw ho =>
    have e : some ms = some ms' := hn.symm.trans hn'; cases e
    refine Eq.trans ?_ hs
    simp only [spawned]
    congr 1
    by_cases he : n = n0
    · subst he; rw [hm] at hn; cases hn
      simp only [hlast]
      have hp := perm_eraseIdx s.shufs i _ hi
      have hp2 := perm_eraseIdx (s.shufs.set i ⟨n, true⟩) i ⟨n, true⟩ (by
        obtain ⟨hi', _⟩ := List.getElem?_eq_some_iff.1 hi; simp [hi'])
      rw [List.eraseIdx_set_eq] at hp2
      have l1 := (hp.filter (fun f => f.mix = n)).length_eq
      have l2 := (hp2.filter (fun f => f.mix = n)).length_eq
      simp at l1 l2
      simp [l1, l2]
    · split
      · have hp := perm_eraseIdx s.shufs i _ hi
        have l1 := (hp.filter (fun f => f.mix = n)).length_eq
        rw [List.filter_cons_of_neg (by simpa using Ne.symm he)] at l1
        exact l1.symm
      · have hp := perm_eraseIdx s.shufs i _ hi
        have hp2 := perm_eraseIdx (s.shufs.set i ⟨n0, true⟩) i ⟨n0, true⟩ (by
          obtain ⟨hi', _⟩ := List.getElem?_eq_some_iff.1 hi; simp [hi'])
        rw [List.eraseIdx_set_eq] at hp2
        have l1 := (hp.filter (fun f => f.mix = n)).length_eq
        have l2 := (hp2.filter (fun f => f.mix = n)).length_eq
        rw [List.filter_cons_of_neg (by simpa using Ne.symm he)] at l1 l2
        rw [l1, l2]
  | @shuffle i words n0 ms0 out hi hm hw ho hout =>
    have hgoal : spawned (State.set { s with shufs := (if ms0.isLastLayer then s.shufs.eraseIdx i else s.shufs.set i ⟨n0, true⟩) } n0
            ({ ms0 with outputs := out, shuffleWait := ms0.shuffleWait - 1, once := true, shuffles := ms0.shuffles + 1 })) n
            = spawned s n := by
      simp only [spawned, State.set]
      congr 1
      by_cases he : n = n0
      · subst he; rw [hm] at hn; cases hn
        simp only [hlast]
        have hp := perm_eraseIdx s.shufs i _ hi
        have hp2 := perm_eraseIdx (s.shufs.set i ⟨n, true⟩) i ⟨n, true⟩ (by
          obtain ⟨hi', _⟩ := List.getElem?_eq_some_iff.1 hi; simp [hi'])
        rw [List.eraseIdx_set_eq] at hp2
        have l1 := (hp.filter (fun f => f.mix = n)).length_eq
        have l2 := (hp2.filter (fun f => f.mix = n)).length_eq
        simp at l1 l2
        simp [l1, l2]
      · split
        · have hp := perm_eraseIdx s.shufs i _ hi
          have l1 := (hp.filter (fun f => f.mix = n)).length_eq
          rw [List.filter_cons_of_neg (by simpa using Ne.symm he)] at l1
          exact l1.symm
        · have hp := perm_eraseIdx s.shufs i _ hi
          have hp2 := perm_eraseIdx (s.shufs.set i ⟨n0, true⟩) i ⟨n0, true⟩ (by
            obtain ⟨hi', _⟩ := List.getElem?_eq_some_iff.1 hi; simp [hi'])
          rw [List.eraseIdx_set_eq] at hp2
          have l1 := (hp.filter (fun f => f.mix = n)).length_eq
          have l2 := (hp2.filter (fun f => f.mix = n)).length_eq
          rw [List.filter_cons_of_neg (by simpa using Ne.symm he)] at l1 l2
          rw [l1, l2]
    rw [hgoal, hs]
    by_cases he : n = n0
    · subst he; rw [hm] at hn; cases hn
      simp only [State.set, if_true, Option.some.injEq] at hn'
      subst hn'
      simp only [isDone, curIs, State.set]; congr
    · simp only [State.set, he, if_false] at hn'
      have e : some ms = some ms' := hn.symm.trans hn'; cases e
      rfl
  | @send i n0 ms0 hi hm hw hsw hcap =>
    have e : some ms = some ms' := hn.symm.trans hn'; cases e
    refine Eq.trans ?_ hs
    simp only [spawned, List.filter_append, List.length_append]
    have hp := perm_eraseIdx s.shufs i _ hi
    have l1 := (hp.filter (fun f => f.mix = n)).length_eq
    by_cases he : n0 = n
    · simp [he] at l1 ⊢
      omega
    · rw [List.filter_cons_of_neg (by simpa using he)] at l1
      rw [l1]; simp [he]
  | take hq hb => have e : some ms = some ms' := hn.symm.trans hn'; cases e; exact hs
  | recv hq => have e : some ms = some ms' := hn.symm.trans hn'; cases e; exact hs
  | close hcl => have e : some ms = some ms' := hn.symm.trans hn'; cases e; exact hs


/-- What the mix has counted from its predecessors. -/
def recvSum (ms : MixState) : Int := (ms.predecessors.map fun e => recvOf ms e.1).sum

theorem sum_one_key (l : List ((Str × Str) × Int)) (hnd : (l.map (·.1)).Nodup) (key : Str × Str) (c : Int) (hc : 0 ≤ c) (f : Str × Str → Int) :
    (l.map fun e => f e.1 + if key = e.1 then c else 0).sum ≤ (l.map fun e => f e.1).sum + c := by
  induction l with
  | nil => simpa using hc
  | cons e l ih =>
    simp only [List.map_cons, List.nodup_cons] at hnd
    simp only [List.map_cons, List.sum_cons]
    by_cases hk : key = e.1
    · have : (l.map fun e => f e.1 + if key = e.1 then c else 0) = l.map fun e => f e.1 := by
        apply List.map_congr_left
        intro e' he'
        rw [if_neg]
        · simp
        · rintro h; exact hnd.1 (List.mem_map.2 ⟨e', he', by rw [← h, hk]⟩)
      rw [this, if_pos hk]; omega
    · rw [if_neg hk]
      have := ih hnd.2
      omega

theorem isDone_sum {ms : MixState} (h : isDone ms = true) : recvSum ms = (ms.predecessors.map (·.2)).sum := by
  unfold recvSum
  congr 1
  apply List.map_congr_left
  intro e he
  have := List.all_eq_true.1 h e he
  simp only [decide_eq_true_eq] at this
  exact this.symm

theorem recvSum_step {env : Env} {s s' : State} {a : Action} (h : StepR env s a s') {n : Str} {ms ms' : MixState}
    (hn : s.states n = some ms) (hn' : s'.states n = some ms') (hnd : (ms.predecessors.map (·.1)).Nodup)
    (hle : recvSum ms ≤ ms.added.length) : recvSum ms' ≤ ms'.added.length := by
  cases h with
  | @handle m rest ms0 h hm =>
    by_cases he : n = m.logicalReceiver
    · subst he
      rw [hm] at hn; cases hn
      simp only [State.set, if_true, Option.some.injEq] at hn'
      subst hn'
      have h1 : recvSum (handleNewInputs ms m).1 = (ms.predecessors.map fun e => recvOf ms e.1 + if (m.physicalSender, m.logicalSender) = e.1 then (m.messages.length : Int) else 0).sum := by
        unfold recvSum
        simp only [recvOf_handle]
        rfl
      have := sum_one_key ms.predecessors hnd (m.physicalSender, m.logicalSender) m.messages.length (by omega) (recvOf ms)
      rw [h1]
      simp only [handleNewInputs, List.length_append]
      unfold recvSum at hle
      push_cast
      omega
    · simp only [State.set, he, if_false] at hn'
      have e : some ms = some ms' := hn.symm.trans hn'; cases e; exact hle
  | @finish i t ms0 ht hd hm h0 h1 hw =>
    by_cases he : n = t.mix
    · subst he; rw [hm] at hn; cases hn
      simp only [State.set, if_true, Option.some.injEq] at hn'
      subst hn'; exact hle
    · simp only [State.set, he, if_false] at hn'
      have e : some ms = some ms' := hn.symm.trans hn'; cases e; exact hle
  | @shuffle i words n0 ms0 out hi hm hw ho hout =>
    by_cases he : n = n0
    · subst he; rw [hm] at hn; cases hn
      simp only [State.set, if_true, Option.some.injEq] at hn'
      subst hn'; exact hle
    · simp only [State.set, he, if_false] at hn'
      have e : some ms = some ms' := hn.symm.trans hn'; cases e; exact hle
  | _ => have e : some ms = some ms' := hn.symm.trans hn'; cases e; exact hle

open Classical in
/-- The number of shuffle goroutines ever started for a mix, whatever its predecessors. -/
theorem exec_spawned_all {env : Env} {s0 s : State} {as : List Action} (hx : exec env s0 as = some s)
    (hc : s.crashed = false) {n : Str} {ms0 : MixState} (hn : s0.states n = some ms0)
    (hadd : ms0.added = []) (hh : s0.holder = none) (hnd : (ms0.predecessors.map (·.1)).Nodup) (hr0 : ∀ k, recvOf ms0 k = 0)
    (hsum : (ms0.predecessors.map (·.2)).sum = (ms0.outputs.length : Int))
    (hsh : s0.shufs = []) (hse : s0.sent = []) (hlast : ms0.isLastLayer = false) (hpos : 0 < ms0.outputs.length)
    (hne : NoEmptyBatch as n) (hle : (delivered as n).length ≤ ms0.outputs.length) :
    ∃ ms, s.states n = some ms ∧ ms.outputs.length = ms0.outputs.length ∧ ms.predecessors = ms0.predecessors ∧ ms.isLastLayer = false ∧
      ms.added ++ restFor s n = delivered as n ∧ recvSum ms ≤ ms.added.length ∧
      (∀ pk, recvOf ms pk + (restFrom s pk n).length = (deliveredFrom as pk n).length) ∧
      spawned s n = if isDone ms = true ∧ ¬ curIs s n then 1 else 0 := by
  induction as using List.reverseRecOn generalizing s with
  | nil =>
    cases hx
    have h0 : recvSum ms0 = 0 := by
      unfold recvSum
      simp [hr0]
    refine ⟨ms0, hn, rfl, rfl, hlast, by simp [hadd, restFor, hh, delivered], by rw [h0]; omega, fun pk => by simp [restFrom, hh, deliveredFrom, hr0], ?_⟩
    rw [if_neg]
    · simp [spawned, hsh, hse]
    · rintro ⟨h, _⟩; have := isDone_sum h; omega
  | append_singleton as a ih =>
    obtain ⟨s1, h1, h2⟩ := exec_snoc hx
    have hc1 := step_not_crashed h2
    have hne1 : NoEmptyBatch as n := fun b hb => hne b (by simp [hb])
    rw [delivered_snoc, List.length_append] at hle
    obtain ⟨ms1, hs1, hl1, hp1, hla1, hd1, hrs1, hrf1, hsp⟩ := ih h1 hc1 hne1 (by omega)
    have hR := stepR_of_step h2 hc
    obtain ⟨ms2, hs2, hl2, hp2, hla2, hd2, _⟩ := stepR_mix hR hs1
    refine ⟨ms2, hs2, hl2.trans hl1, hp2.trans hp1, hla2.trans hla1, by rw [hd2, hd1, delivered_snoc], ?_, ?_, ?_⟩
    · exact recvSum_step hR hs1 hs2 (by rw [hp1]; exact hnd) hrs1
    · intro pk
      have := stepR_recv hR hs1 hs2 pk
      have h3 := hrf1 pk
      rw [deliveredFrom_snoc, List.length_append]
      push_cast
      omega
    · refine spawned_step_all hR hs1 hs2 ?_ hla1 ?_ ?_ hsp
      · intro hd
        have h3 := isDone_sum hd
        rw [hp1, hsum] at h3
        omega
      · have := congrArg List.length hd2
        rw [hd1] at this
        simp only [List.length_append] at this
        omega
      · exact exec_rest (P := fun m => m.logicalReceiver = n → m.messages ≠ []) h1 hc1 hh
          (fun b hb ms hms m hm => hne1 b hb ms hms m hm)

theorem erase_not_mem {κ ν : Type} [DecidableEq κ] (m : GoMap κ ν) (k : κ) (h : k ∉ m.map Prod.fst) : m.erase k = m := by
  induction m with
  | nil => rfl
  | cons e m ih =>
    simp only [List.map_cons, List.mem_cons, not_or] at h
    simp only [GoMap.erase, if_neg (Ne.symm h.1), ih h.2]

theorem setPredecessors_fold (topo : Topology) (w : GoMap Str Int) (own : Int) (senders : List (Str × Str)) :
    ∀ acc : GoMap (Str × Str) Int, (senders.map (·.2)).Nodup → genesisName ∉ senders.map (·.2) →
      (∀ pk ∈ senders, ∃ pm, topo.getMix pk.2 = some pm ∧ pm.hostname = pk.1) → (∀ pk ∈ senders, pk ∉ acc.map Prod.fst) →
      (senders.map (·.2)).foldlM (fun acc p =>
        if p = genesisName then Except.ok (ε := Fail) (acc.insert (genesisName, p) own)
        else match topo.getMix p with
          | none => .error .panic
          | some pm => .ok (acc.insert (pm.hostname, p) ((w.lookup p).getD 0))) acc =
        .ok ((senders.map fun pk => (pk, (w.lookup pk.2).getD 0)).reverse ++ acc) := by
  induction senders with
  | nil => intro acc _ _ _ _; rfl
  | cons pk l ih =>
    intro acc hnd hg hh hacc
    simp only [List.map_cons, List.nodup_cons, List.mem_cons, not_or] at hnd hg
    obtain ⟨pm, h1, h2⟩ := hh pk (by simp)
    simp only [List.map_cons, List.foldlM_cons, if_neg (Ne.symm hg.1), h1, h2, bind, Except.bind]
    have hk : (acc.insert (pk.1, pk.2) ((w.lookup pk.2).getD 0)) = (pk, (w.lookup pk.2).getD 0) :: acc := by
      unfold GoMap.insert
      rw [erase_not_mem acc _ (hacc pk (by simp))]
    rw [hk, ih _ hnd.2 hg.2 (fun x hx => hh x (List.mem_cons_of_mem _ hx))]
    · simp
    · intro x hx
      simp only [List.map_cons, List.mem_cons, not_or]
      refine ⟨?_, hacc x (List.mem_cons_of_mem _ hx)⟩
      rintro rfl
      exact hnd.1 (List.mem_map_of_mem hx)

theorem setPredecessors_all {topo : Topology} {w : GoMap Str Int} {mix : LogicalMix} {senders : List (Str × Str)}
    (he : ExpectsAll topo w mix senders) (own : Int) :
    setPredecessors topo mix w own = .ok (senders.map fun pk => (pk, (w.lookup pk.2).getD 0)).reverse := by
  unfold setPredecessors
  have := setPredecessors_fold topo w own senders [] (by rw [he.names]; exact he.nodup) (by rw [he.names]; exact he.inner) he.hosts (by simp)
  rw [he.names, List.append_nil] at this
  exact this

end Resmix.Mixer
