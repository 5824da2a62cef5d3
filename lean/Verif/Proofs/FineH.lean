import Verif.Proofs.FineG
set_option autoImplicit false
namespace Resmix.MixerFine
open Resmix.Mixer (Messages Task Env MixState AddOp Shuf MixOutput Action mkTasks)
open Resmix.Race

theorem perm_facts {words rest : List Bytes} {n : Nat} {p : List Nat} (h : Shuffle.permutation Shuffle.scripted words n = .ok (p, rest)) : p.Perm (List.range n) := by
  obtain ⟨p', s', h', hp⟩ := Shuffle.permutation_perm Shuffle.scripted words n
  rw [h] at h'; cases h'; exact hp

/-- What the loop of ShuffleOnions wrote is what Model/Shuffle computes. -/
theorem shuffle_eq {words rest : List Bytes} {p : List Nat} {orig out : List Bytes}
    (h : Shuffle.permutation Shuffle.scripted words orig.length = .ok (p, rest)) (ho : ∀ (j : Nat), out[j]? = (p[j]?).bind fun k => orig[k]?) :
    ∃ shf, Shuffle.shuffleOnions (Shuffle.newShuffler Shuffle.scripted words) orig = .ok (out, shf) := by
  have hp := perm_facts h
  obtain ⟨out', h1, h2, h3⟩ := Shuffle.applyPerm_eq p orig hp
  have : out = out' := by
    apply List.ext_getElem?
    intro j
    rw [ho j]
    have := congrArg (fun l => l[j]?) h3
    simp only [List.getElem?_map] at this
    cases hpj : p[j]? with
    | none => rw [hpj] at this; simp at this; simp [this]
    | some k =>
      rw [hpj] at this
      cases hoj : out'[j]? with
      | none => rw [hoj] at this; simp at this
      | some y => rw [hoj] at this; simpa using this
  subst this
  refine ⟨⟨some p, rest⟩, ?_⟩
  unfold Shuffle.shuffleOnions
  rw [if_pos (by simp [Shuffle.needsPerm, Shuffle.newShuffler])]
  have h' : Shuffle.permutation Shuffle.scripted (Shuffle.newShuffler Shuffle.scripted words).rand orig.length = .ok (p, rest) := h
  simp only [bind, Except.bind, h', h1]

/-- A goroutine of the mix moves on. -/
theorem R.move {env : Env} {last : Str → Bool} {f f' : State} {c c' : Mixer.State} (h : R env last f c) (hsi : SInv f) {j g : Nat} {n : Str} {pc pc' : SPc} {M M' : Mem}
    {ms' : MixState} (hj : f.shufs[j]? = some (g, n, pc)) (hM : f.mixes n = some M) (hst : ∀ n', c'.states n' = if n' = n then some ms' else c.states n')
    (hmr : MR (pendN f.holder n) (wrN f.busy n) (f.shufs.set j (g, n, pc')) n M' ms') (htw : ∀ ms, c.states n = some ms → ms'.totalWorkload = ms.totalWorkload)
    (c1 : c'.crashed = c.crashed) (c2 : c'.closed = c.closed) (c3 : c'.queue = c.queue) (c4 : c'.busy = c.busy) (c5 : c'.holder = c.holder)
    (c6 : c'.output = c.output) (c7 : c'.sent = c.sent) (hsh : c'.shufs = (f.shufs.set j (g, n, pc')).filterMap (shufC last))
    (hm : ∀ n', f'.mixes n' = if n' = n then some M' else f.mixes n')
    (f2 : f'.closed = f.closed) (f3 : f'.queue = f.queue) (f4 : f'.busy = f.busy) (f5 : f'.holder = f.holder) (f6 : f'.output = f.output)
    (f7 : f'.received = f.received) (f8 : f'.shufs = f.shufs.set j (g, n, pc'))
    (m1 : M'.predecessors = M.predecessors) (m2 : M'.totalReceived = M.totalReceived) (m3 : M'.isLastLayer = M.isLastLayer)
    (m4 : M.once = .done → M'.outputs = M.outputs) : R env last f' c' where
  crashed := c1.trans h.crashed
  closed := by rw [c2, f2]; exact h.closed
  queue := by rw [c3, f3]; exact h.queue
  busy := by rw [c4, f4]; exact h.busy
  holder := by rw [c5, f5]; exact h.holder
  none := fun n' hn => by
    rw [hm] at hn
    split at hn
    · cases hn
    · next e => rw [hst, if_neg e]; exact h.none n' hn
  mix := fun n' N hN => by
    rw [hm] at hN
    rw [f4, f5, f8]
    split at hN
    · next e => cases hN; subst e; exact ⟨ms', by rw [hst, if_pos rfl], hmr⟩
    · next e =>
      obtain ⟨ns, hns, hr⟩ := h.mix n' N hN
      refine ⟨ns, by rw [hst, if_neg e]; exact hns, { hr with outs := fun hno => hr.outs fun g' o p w i he => ?_, outsPut := fun g' o p w i he => ?_ }⟩
      · refine hno g' o p w i ((mem_set_ids hsi.ids hj).2 (.inr ⟨he, ?_⟩))
        rintro (e1 : g' = g)
        subst e1
        have := ids_unique hsi.ids he (List.mem_of_getElem? hj) rfl
        cases this; exact e rfl
      · rcases (mem_set_ids hsi.ids hj).1 he with e1 | ⟨he, -⟩
        · cases e1; exact absurd rfl e
        · exact hr.outsPut _ _ _ _ _ he
  more := fun g' qc rest hh => by
    rw [f5] at hh
    have := h.more g' qc rest hh
    revert this
    cases qc <;> simp only [More, hm, hst] <;> grind
  shufs := by rw [hsh, f8]
  lastOk := fun n' N hN => by
    rw [hm] at hN
    split at hN
    · next e => cases hN; rw [e, m3]; exact h.lastOk _ M hM
    · exact h.lastOk n' N hN
  output := by rw [c6, f6]; exact h.output
  sent := by rw [c6, c7, f7]; exact h.sent
  cont := fun o ho => by
    rw [c7] at ho
    obtain ⟨N, hN, hc⟩ := h.cont o ho
    by_cases e : o.logicalSender = n
    · obtain ⟨pre, h1, h2⟩ := h.sent
      have hmem : o.logicalSender ∈ f.received ++ f.output := by
        rw [← h2, ← h.output, ← List.map_append, ← h1]
        exact List.mem_map_of_mem ho
      obtain ⟨N', hN', hd, -⟩ := hsi.out _ hmem
      rw [e, hM] at hN hN'; cases hN; cases hN'
      exact ⟨M', by rw [hm, if_pos e], (m4 hd).trans hc⟩
    · exact ⟨N, by rw [hm, if_neg e]; exact hN, hc⟩
  cpu := by rw [f4]; exact h.cpu

theorem same_states {c : Mixer.State} {n : Str} {ms : MixState} (h : c.states n = some ms) (n' : Str) : c.states n' = if n' = n then some ms else c.states n' := by
  split
  · next e => rw [e]; exact h
  · rfl

/-- Moving between two points of which neither is in the loop that writes the outputs. -/
theorem MR.set_other {pend wr : Nat} {f : State} (hsi : SInv f) {j g : Nat} {n : Str} {pc pc' : SPc} {M : Mem} {ms : MixState} (hj : f.shufs[j]? = some (g, n, pc))
    (hp : ∀ o p w i, pc ≠ .put o p w i) (hp' : ∀ o p w i, pc' ≠ .put o p w i) (h : MR pend wr f.shufs n M ms) : MR pend wr (f.shufs.set j (g, n, pc')) n M ms := by
  refine { h with outs := fun hno => h.outs fun g' o p w i he => ?_, outsPut := fun g' o p w i he => ?_ }
  · refine hno g' o p w i ((mem_set_ids hsi.ids hj).2 (.inr ⟨he, ?_⟩))
    rintro (e1 : g' = g)
    subst e1
    have := ids_unique hsi.ids he (List.mem_of_getElem? hj) rfl
    cases this; exact hp _ _ _ _ rfl
  · rcases (mem_set_ids hsi.ids hj).1 he with e1 | ⟨he, -⟩
    · cases e1; exact absurd rfl (hp' _ _ _ _)
    · exact h.outsPut _ _ _ _ _ he

/-- The only goroutine of a mix that writes outputs, after its move. -/
theorem no_put {f : State} (hsi : SInv f) {j g : Nat} {n : Str} {pc pc' : SPc} (hj : f.shufs[j]? = some (g, n, pc)) (hb : isBody pc) :
    ∀ g' o p w i, (g', n, SPc.put o p w i) ∈ f.shufs.set j (g, n, pc') → pc' = .put o p w i := by
  intro g' o p w i he
  rcases (mem_set_ids hsi.ids hj).1 he with e1 | ⟨he, hne⟩
  · cases e1; rfl
  · exact absurd (hsi.body _ _ _ _ _ he (List.mem_of_getElem? hj) trivial hb) hne

/-- The goroutine at `j` moves without a step of Model/Mixer. -/
theorem R.quiet {env : Env} {last : Str → Bool} {f f' : State} {c : Mixer.State} (h : R env last f c) (hsi : SInv f) {j g : Nat} {n : Str} {pc pc' : SPc} {M M' : Mem}
    (hj : f.shufs[j]? = some (g, n, pc)) (hM : f.mixes n = some M)
    (hmr : ∀ ms, c.states n = some ms → MR (pendN f.holder n) (wrN f.busy n) f.shufs n M ms → MR (pendN f.holder n) (wrN f.busy n) (f.shufs.set j (g, n, pc')) n M' ms)
    (hsc : shufC last (g, n, pc') = shufC last (g, n, pc))
    (hm : ∀ n', f'.mixes n' = if n' = n then some M' else f.mixes n')
    (f2 : f'.closed = f.closed) (f3 : f'.queue = f.queue) (f4 : f'.busy = f.busy) (f5 : f'.holder = f.holder) (f6 : f'.output = f.output)
    (f7 : f'.received = f.received) (f8 : f'.shufs = f.shufs.set j (g, n, pc'))
    (m1 : M'.predecessors = M.predecessors) (m2 : M'.totalReceived = M.totalReceived) (m3 : M'.isLastLayer = M.isLastLayer)
    (m4 : M.once = .done → M'.outputs = M.outputs) : R env last f' c := by
  obtain ⟨ms, hms, hr⟩ := h.mix _ _ hM
  exact h.move hsi hj hM (same_states hms) (hmr ms hms hr) (fun ns hns => by rw [hms] at hns; cases hns; rfl) rfl rfl rfl rfl rfl rfl rfl
    (by rw [h.shufs]; exact (fm_same hj hsc).symm) hm f2 f3 f4 f5 f6 f7 f8 m1 m2 m3 m4

set_option maxHeartbeats 2000000 in
theorem sim_shuf {env : Env} {last : Str → Bool} {f f' : State} {c : Mixer.State} {evs : List Ev} (h : R env last f c) (ht : TInv f) (hsi : SInv f) (h0 : f.crashed = false)
    (hs : ShufStep env f evs f') : f'.calls = f.calls ∧ Match env last f' c [] := by
  cases hs with
  | @start j g n M hj hM hw =>
    refine ⟨rfl, .stutter ?_ h0⟩
    exact h.quiet (pc' := .enter) hsi hj hM (fun ms _ hr => hr.set_other hsi hj (by simp) (by simp)) rfl (same_mixes hM) rfl rfl rfl rfl rfl rfl rfl rfl rfl rfl (fun _ => rfl)
  | @first j g n M hj hM ho =>
    refine ⟨rfl, .stutter ?_ h0⟩
    refine h.quiet (pc' := .copy []) (M' := { M with once := .running }) hsi hj hM (fun ms _ hr => ?_) rfl (fun _ => rfl) rfl rfl rfl rfl rfl rfl rfl rfl rfl rfl (fun _ => rfl)
    have := hr.set_other (pc' := .copy []) hsi hj (by simp) (by simp)
    exact { this with }
  | @later j g n M hj hM ho =>
    obtain ⟨ms, hms, hr⟩ := h.mix _ _ hM
    have hmx := hsi.mix _ _ hM
    have hwg := hmx.wg (by simp [ho])
    have hle := ht.wr_le hM
    have hw0 : ms.wg = 0 := by have := hr.wg; omega
    have honce : ms.once = true := by rw [hr.once]; simp [hmx.done ho]
    obtain ⟨i, hi, hset, hera, -⟩ := fm_replace (f := shufC last) hj (a := ⟨n, false⟩) rfl
    rw [← h.shufs] at hi hset hera
    have hl : ms.isLastLayer = last n := by rw [hr.last]; exact h.lastOk _ _ hM
    refine ⟨rfl, .one (a := .shuffle i []) (c' := { c with shufs := if ms.isLastLayer then c.shufs.eraseIdx i else c.shufs.set i ⟨n, true⟩ }) ?_
      (h.crashed.trans h0.symm) ?_ (by simp) (by simp)⟩
    · simp [Mixer.step, h.crashed, Mixer.shuffleStep, hi, hms, hw0, honce]
    · intro _
      refine h.move hsi hj hM (same_states hms) (hr.set_other (pc' := .after) hsi hj (by simp) (by simp)) (fun ns hns => by rw [hms] at hns; cases hns; rfl)
        rfl rfl rfl rfl rfl rfl rfl ?_ (same_mixes hM) rfl rfl rfl rfl rfl rfl rfl rfl rfl rfl (fun _ => rfl)
      rw [hl]
      cases hln : last n with
      | true => rw [hera (g, n, .after) (by simp [shufC, hln])]; rfl
      | false => rw [hset (g, n, .after) ⟨n, true⟩ (by simp [shufC, hln])]; rfl
  | @copy j g n orig x M hj hM hx =>
    refine ⟨rfl, .stutter ?_ h0⟩
    exact h.quiet (pc' := .copy (orig ++ [x])) hsi hj hM (fun ms _ hr => hr.set_other hsi hj (by simp) (by simp)) rfl (same_mixes hM) rfl rfl rfl rfl rfl rfl rfl rfl rfl rfl (fun _ => rfl)
  | @draw j g n orig M p words rest hj hM hl hp =>
    obtain ⟨M', hM', h1, h2, h3⟩ := hsi.ok _ _ _ (List.mem_of_getElem? hj)
    rw [hM] at hM'; cases hM'
    rw [hl, List.take_length] at h3
    have hnp := no_put (pc' := SPc.put orig p words 0) hsi hj trivial
    refine ⟨rfl, .stutter ?_ h0⟩
    refine h.quiet (pc' := .put orig p words 0) hsi hj hM (fun ms _ hr => ?_) rfl (same_mixes hM) rfl rfl rfl rfl rfl rfl rfl rfl rfl rfl (fun _ => rfl)
    have hno : ∀ g' o p w i, (g', n, SPc.put o p w i) ∉ f.shufs := by
      intro g' o p w i he
      have := hsi.body _ _ _ _ _ he (List.mem_of_getElem? hj) trivial trivial
      subst this
      have := ids_unique hsi.ids he (List.mem_of_getElem? hj) rfl
      cases this
    have ho := hr.outs hno
    refine { hr with outs := fun _ => ho, outsPut := fun g' o p' w i he => ?_ }
    have := hnp g' o p' w i he
    cases this
    rw [ho, h3]
  | @put j g n orig p words i k x M hj hM hi hk hx =>
    have hmem := List.mem_of_getElem? hj
    obtain ⟨M', hM', h1, -⟩ := hsi.ok _ _ _ hmem
    rw [hM] at hM'; cases hM'
    have hnp := no_put (pc' := SPc.put orig p words (i + 1)) hsi hj trivial
    refine ⟨rfl, .stutter ?_ h0⟩
    refine h.quiet (pc' := .put orig p words (i + 1)) (M' := { M with outputs := M.outputs.set i x }) hsi hj hM (fun ms _ hr => ?_) rfl (fun _ => rfl) rfl rfl rfl rfl rfl rfl rfl rfl rfl rfl
      (fun hd => by rw [h1] at hd; cases hd)
    refine { hr with outs := fun hno => ?_, outsPut := fun g' o p' w i' he => ?_ }
    · exact absurd (mem_set_self hj) (hno g orig p words (i + 1))
    · have := hnp g' o p' w i' he
      cases this
      exact hr.outsPut _ _ _ _ _ hmem
  | @badIndex j g n orig p words i M hj hM hi hk =>
    exfalso
    obtain ⟨M', hM', h1, h2, h3, h4, ⟨rest, h5⟩, h6⟩ := hsi.ok _ _ _ (List.mem_of_getElem? hj)
    rw [hM] at hM'; cases hM'
    have hp := perm_facts h5
    have hlen : p.length = orig.length := by simpa using hp.length_eq
    have hil : i < p.length := by omega
    have hlt : p[i] < orig.length := by
      have := hp.mem_iff.1 (List.getElem_mem hil)
      simpa using this
    have := hk p[i] (List.getElem?_eq_getElem hil)
    rw [List.getElem?_eq_getElem hlt] at this; cases this
  | @signal j g n orig p words i M hj hM hi' =>
    have hmem := List.mem_of_getElem? hj
    obtain ⟨M', hM', h1, h2, h3, h4, ⟨rest, h5⟩, h6⟩ := hsi.ok _ _ _ hmem
    rw [hM] at hM'; cases hM'
    obtain ⟨ms, hms, hr⟩ := h.mix _ _ hM
    have hmx := hsi.mix _ _ hM
    have hwg := hmx.wg (by simp [h1])
    have hle := ht.wr_le hM
    have hw0 : ms.wg = 0 := by have := hr.wg; omega
    have honce : ms.once = false := by rw [hr.once]; simp [h2]
    have hou := hr.outsPut _ _ _ _ _ hmem
    have hplen : p.length = orig.length := by simpa using (perm_facts h5).length_eq
    obtain ⟨shf, hshf⟩ := shuffle_eq (out := M.outputs) h5 (fun l => by
      rw [h6 l]
      by_cases hl : l < i
      · rw [if_pos hl]
      · rw [if_neg hl, List.getElem?_eq_none (by omega), List.getElem?_eq_none (by omega)]; rfl)
    obtain ⟨i, hi, hset, hera, -⟩ := fm_replace (f := shufC last) hj (a := ⟨n, false⟩) rfl
    rw [← h.shufs] at hi hset hera
    have hl : ms.isLastLayer = last n := by rw [hr.last]; exact h.lastOk _ _ hM
    refine ⟨rfl, .one (a := .shuffle i words)
      (c' := ({ c with shufs := if ms.isLastLayer then c.shufs.eraseIdx i else c.shufs.set i ⟨n, true⟩ } : Mixer.State).set n
        { ms with outputs := M.outputs, shuffleWait := ms.shuffleWait - 1, once := true, shuffles := ms.shuffles + 1 }) ?_
      (h.crashed.trans h0.symm) ?_ (by simp) (by simp)⟩
    · simp [Mixer.step, h.crashed, Mixer.shuffleStep, hi, hms, hw0, honce, hou, hshf]
    · intro _
      have hnp := no_put (pc' := SPc.leave) hsi hj trivial
      refine h.move (M' := { M with shuffleWait := M.shuffleWait - 1 }) hsi hj hM (fun _ => rfl)
        ⟨hr.pred, hr.last, hr.recd, hr.tw, hr.wg, by simp [hr.sw], by simp [h2], fun _ => rfl, fun g' o p' w i' he => by have := hnp g' o p' w i' he; cases this⟩
        (fun ns hns => by rw [hms] at hns; cases hns; rfl)
        rfl rfl rfl rfl rfl rfl rfl ?_ (fun _ => rfl) rfl rfl rfl rfl rfl rfl rfl rfl rfl rfl (fun _ => rfl)
      show (if ms.isLastLayer = true then _ else _) = _
      rw [hl]
      cases hln : last n with
      | true => rw [hera (g, n, .leave) (by simp [shufC, hln])]; rfl
      | false => rw [hset (g, n, .leave) ⟨n, true⟩ (by simp [shufC, hln])]; rfl
  | @leave j g n M hj hM =>
    refine ⟨rfl, .stutter ?_ h0⟩
    refine h.quiet (pc' := .after) (M' := { M with once := .done }) hsi hj hM (fun ms _ hr => ?_) rfl (fun _ => rfl) rfl rfl rfl rfl rfl rfl rfl rfl rfl rfl (fun _ => rfl)
    have := hr.set_other (pc' := .after) hsi hj (by simp) (by simp)
    exact { this with }
  | @last j g n M hj hM hl =>
    refine ⟨rfl, .stutter ?_ h0⟩
    have hln : last n = true := by rw [← h.lastOk _ _ hM]; exact hl
    exact { h with
      mix := fun n' N hN => by
        obtain ⟨ns, hns, hr⟩ := h.mix n' N hN
        refine ⟨ns, hns, { hr with outs := fun hno => hr.outs fun g' o p w i he => ?_, outsPut := fun g' o p w i he => hr.outsPut _ _ _ _ _ (List.mem_of_mem_eraseIdx he) }⟩
        refine hno g' o p w i ((mem_erase_ids hsi.ids hj).2 ⟨he, ?_⟩)
        rintro (e1 : g' = g)
        subst e1
        have := ids_unique hsi.ids he (List.mem_of_getElem? hj) rfl
        cases this
      more := fun g' pc rest hh => by
        have := h.more g' pc rest hh
        revert this; cases pc <;> exact id
      shufs := by rw [h.shufs]; exact (fm_erase_none hj (by simp [shufC, hln])).symm }
  | @waited j g n M hj hM hl hw =>
    refine ⟨rfl, .stutter ?_ h0⟩
    have hln : last n = false := by rw [← h.lastOk _ _ hM]; exact hl
    exact h.quiet (pc' := .wait) hsi hj hM (fun ms _ hr => hr.set_other hsi hj (by simp) (by simp)) (by simp [shufC, hln]) (same_mixes hM) rfl rfl rfl rfl rfl rfl rfl rfl rfl rfl (fun _ => rfl)
  | @outputs j g n M hj hM hw =>
    refine ⟨rfl, .stutter ?_ h0⟩
    exact h.quiet (pc' := .send) hsi hj hM (fun ms _ hr => hr.set_other hsi hj (by simp) (by simp)) rfl (same_mixes hM) rfl rfl rfl rfl rfl rfl rfl rfl rfl rfl (fun _ => rfl)
  | @send j g n hj hcap =>
    obtain ⟨M, hM, hd, hl⟩ := hsi.ok _ _ _ (List.mem_of_getElem? hj)
    obtain ⟨ms, hms, hr⟩ := h.mix _ _ hM
    have hmx := hsi.mix _ _ hM
    have hwg := hmx.wg (by simp [hd])
    have hle := ht.wr_le hM
    have hw0 : ms.wg = 0 := by have := hr.wg; omega
    have hsw : ms.shuffleWait = 0 := by rw [hr.sw]; exact hmx.done hd
    have hno : ∀ g' o p w i, (g', n, SPc.put o p w i) ∉ f.shufs := by
      intro g' o p w i he
      obtain ⟨M', hM', hrun, -⟩ := hsi.ok _ _ _ he
      rw [hM] at hM'; cases hM'
      rw [hd] at hrun; cases hrun
    have hou := hr.outs hno
    obtain ⟨i, hi, -, -, hera⟩ := fm_replace (f := shufC last) hj (a := ⟨n, true⟩) rfl
    rw [← h.shufs] at hi hera
    have hol : c.output.length = f.output.length := by rw [← h.output]; simp
    refine ⟨rfl, .one (a := .send i) (c' := { c with shufs := c.shufs.eraseIdx i, output := c.output ++ [⟨M.outputs, n⟩], sent := c.sent ++ [⟨M.outputs, n⟩] }) ?_
      (h.crashed.trans h0.symm) ?_ (by simp) (by simp)⟩
    · simp [Mixer.step, h.crashed, Mixer.sendStep, hi, hms, Mixer.getOutputs, hw0, hsw, hol, hcap, hou]
    · intro _
      exact { h with
        mix := fun n' N hN => by
          obtain ⟨ns, hns, hr⟩ := h.mix n' N hN
          refine ⟨ns, hns, { hr with outs := fun hno => hr.outs fun g' o p w i he => ?_, outsPut := fun g' o p w i he => hr.outsPut _ _ _ _ _ (List.mem_of_mem_eraseIdx he) }⟩
          refine hno g' o p w i ((mem_erase_ids hsi.ids hj).2 ⟨he, ?_⟩)
          rintro (e1 : g' = g)
          subst e1
          have := ids_unique hsi.ids he (List.mem_of_getElem? hj) rfl
          cases this
        more := fun g' pc rest hh => by
          have := h.more g' pc rest hh
          revert this; cases pc <;> exact id
        shufs := hera.symm
        output := by show (c.output ++ [_]).map _ = f.output ++ [n]; rw [List.map_append, h.output]; rfl
        sent := by
          obtain ⟨pre, e1, e2⟩ := h.sent
          exact ⟨pre, by show c.sent ++ [_] = pre ++ (c.output ++ [_]); rw [e1, List.append_assoc], e2⟩
        cont := fun o ho => by
          rcases List.mem_append.1 ho with ho | ho
          · exact h.cont o ho
          · simp at ho; subst ho; exact ⟨M, hM, rfl⟩ }

theorem sim_read {env : Env} {last : Str → Bool} {f f' : State} {c : Mixer.State} {evs : List Ev} (h : R env last f c) (h0 : f.crashed = false)
    (hs : ReadStep f evs f') : f'.calls = f.calls ∧ Match env last f' c [] := by
  have hmore : ∀ (f' : State) (c' : Mixer.State), f'.mixes = f.mixes → c'.states = c.states → f'.holder = f.holder → ∀ g pc rest, f'.holder = some (g, pc, rest) → More f' c' pc := by
    intro f' c' h1 h2 h3 g pc rest hh
    rw [h3] at hh
    have := h.more g pc rest hh
    revert this
    cases pc <;> simp only [More, h1, h2] <;> exact id
  cases hs with
  | @recv n q hq =>
    obtain ⟨o, os, ho⟩ : ∃ o os, c.output = o :: os := by
      cases e : c.output with
      | nil => have := h.output; rw [e, hq] at this; cases this
      | cons o os => exact ⟨o, os, rfl⟩
    have hout := h.output
    rw [ho, hq] at hout
    simp at hout
    refine ⟨rfl, .one (a := .recv) (c' := { c with output := os }) ?_ (h.crashed.trans h0.symm) ?_ (by simp) (by simp)⟩
    · simp [Mixer.step, h.crashed, ho]
    · intro _
      exact { h with
        more := hmore _ _ rfl rfl rfl
        output := hout.2
        sent := by
          obtain ⟨pre, e1, e2⟩ := h.sent
          refine ⟨pre ++ [o], ?_, ?_⟩
          · show c.sent = pre ++ [o] ++ os; rw [e1, ho]; simp
          · show (pre ++ [o]).map _ = f.received ++ [n]; rw [List.map_append, e2, ← hout.1]; rfl }
  | senderRead hn hM hi => exact ⟨rfl, .stutter h h0⟩
  | get hM => exact ⟨rfl, .stutter { h with more := hmore _ _ rfl rfl rfl } h0⟩
  | getWg hk hM hw => exact ⟨rfl, .stutter { h with more := hmore _ _ rfl rfl rfl } h0⟩
  | getShuffled hk hM hw => exact ⟨rfl, .stutter { h with more := hmore _ _ rfl rfl rfl } h0⟩
  | getRead hk hM hi => exact ⟨rfl, .stutter h h0⟩
  | close hcl =>
    refine ⟨rfl, .one (a := .close) (c' := { c with closed := true }) ?_ (h.crashed.trans h0.symm) ?_ (by simp) (fun _ => rfl)⟩
    · simp [Mixer.step, h.crashed, h.closed, hcl]
    · intro _
      exact { h with more := hmore _ _ rfl rfl rfl, closed := rfl }
  | closed hcl =>
    refine ⟨rfl, .one (a := .close) (c' := c.crash) ?_ rfl ?_ (by simp) (fun _ => hcl)⟩
    · simp [Mixer.step, h.crashed, h.closed, hcl]
    · intro hc; simp [State.crash] at hc

theorem sim_step {env : Env} {last : Str → Bool} {f f' : State} {c : Mixer.State} {evs : List Ev} (h : R env last f c) (ht : TInv f) (hsi : SInv f) (h0 : f.crashed = false)
    (hs : Step env f evs f') : ∃ calls, f'.calls = f.calls ++ calls ∧ Match env last f' c calls := by
  cases hs with
  | add hs => exact sim_add h ht h0 hs
  | work hs => obtain ⟨a, b⟩ := sim_work h ht hsi h0 hs; exact ⟨[], by simp [a], b⟩
  | shuf hs => obtain ⟨a, b⟩ := sim_shuf h ht hsi h0 hs; exact ⟨[], by simp [a], b⟩
  | read hs => obtain ⟨a, b⟩ := sim_read h h0 hs; exact ⟨[], by simp [a], b⟩

end Resmix.MixerFine
