import Verif.Model.MixerFine
import Verif.Proofs.Mixer
import Verif.Proofs.Race
import Mathlib.Algebra.Order.Ring.Int
set_option autoImplicit false
/- Counting and control invariants of the fine-grained mixer (C122, C123). -/
namespace Resmix.MixerFine
open Resmix.Mixer (Messages Task Env)
open Resmix.Race

def holderTasks : HPc → List Task
  | .idx _ _ acc => acc
  | .load _ _ _ acc _ => acc
  | .store _ _ _ acc _ _ => acc
  | .rstore _ acc _ => acc
  | .push _ ts => ts
  | _ => []

def hTasks (s : State) : List Task := match s.holder with | some (_, pc, _) => holderTasks pc | none => []

/-- The tasks whose result is not written. -/
def unwritten (s : State) : List Task := hTasks s ++ s.queue ++ s.busy.filterMap fun e => if e.2.2 then none else some e.2.1

/-- The tasks that are not done. -/
def tasks (s : State) : List Task := hTasks s ++ s.queue ++ s.busy.map (·.2.1)

def isLive (n : Str) (t : Task) : Bool := decide (t.mix = n ∧ 0 ≤ t.idx)

/-- What the goroutine in AddMessages knows. -/
def HoldOk (s : State) : HPc → Prop
  | .next => True
  | .idx m _ acc => (∃ M, s.mixes m.logicalReceiver = some M) ∧ ∀ t ∈ acc, t.mix = m.logicalReceiver
  | .load m _ _ acc i => (∃ M, s.mixes m.logicalReceiver = some M ∧ i = M.totalWorkload - 1) ∧ ∀ t ∈ acc, t.mix = m.logicalReceiver
  | .store m _ _ acc i v => (∃ M, s.mixes m.logicalReceiver = some M ∧ i = M.totalWorkload - 1 ∧ v = M.totalWorkload) ∧ ∀ t ∈ acc, t.mix = m.logicalReceiver
  | .rstore m acc v => (∃ M, s.mixes m.logicalReceiver = some M ∧ v = (M.totalReceived.lookup (m.physicalSender, m.logicalSender)).getD 0) ∧ ∀ t ∈ acc, t.mix = m.logicalReceiver
  | .push n ts => (∃ M, s.mixes n = some M) ∧ ∀ t ∈ ts, t.mix = n
  | .check n _ => ∃ M, s.mixes n = some M

structure TInv (s : State) : Prop where
  cnt : ∀ n M, s.mixes n = some M → (((tasks s).countP (isLive n) : Nat) : Int) + max M.totalWorkload 0 = M.wg
  nd : (tasks s).Pairwise fun t u => t.mix = u.mix → t.idx ≠ u.idx
  low : ∀ t ∈ tasks s, ∃ M, s.mixes t.mix = some M ∧ M.totalWorkload ≤ t.idx
  hold : ∀ g pc rest, s.holder = some (g, pc, rest) → HoldOk s pc
  bid : (s.busy.map (·.1)).Nodup
  bval : ∀ w t, (w, t, true) ∈ s.busy → 0 ≤ t.idx

theorem TInv.of_perm {s s' : State} (h : TInv s) (hm : s'.mixes = s.mixes) (hp : (tasks s).Perm (tasks s'))
    (hold : ∀ g pc rest, s'.holder = some (g, pc, rest) → HoldOk s pc)
    (bid : (s'.busy.map (·.1)).Nodup) (bval : ∀ w t, (w, t, true) ∈ s'.busy → 0 ≤ t.idx) : TInv s' where
  cnt := fun n M hM => by rw [hm] at hM; rw [← hp.countP_eq]; exact h.cnt n M hM
  nd := hp.pairwise h.nd (fun hxy e => (hxy e.symm).symm)
  low := fun t ht => by rw [hm]; exact h.low t (hp.mem_iff.2 ht)
  hold := fun g pc rest hh => by
    have := hold g pc rest hh
    revert this
    cases pc <;> simp only [HoldOk, hm] <;> exact id
  bid := bid
  bval := bval

theorem countP_pos_of_mem {l : List Task} {t : Task} {n : Str} (ht : t ∈ l) (hn : t.mix = n) (hi : 0 ≤ t.idx) : 1 ≤ l.countP (isLive n) :=
  List.countP_pos_iff.2 ⟨t, ht, by simp [isLive, hn, hi]⟩

theorem unwritten_sub {s : State} {t : Task} (h : t ∈ unwritten s) : t ∈ tasks s := by
  simp only [unwritten, tasks, List.mem_append, List.mem_filterMap, List.mem_map] at h ⊢
  rcases h with h | ⟨e, he, ht⟩
  · exact .inl h
  · refine .inr ⟨e, he, ?_⟩
    split at ht <;> simp_all

/-- A mix with a task that has a valid index is waited for. -/
theorem TInv.wg_pos {s : State} (h : TInv s) {t : Task} {M : Mem} (ht : t ∈ tasks s) (hM : s.mixes t.mix = some M) (hi : 0 ≤ t.idx) : 1 ≤ M.wg := by
  have h1 := h.cnt t.mix M hM
  have h2 := countP_pos_of_mem ht rfl hi
  have : (0 : Int) ≤ max M.totalWorkload 0 := le_max_right _ _
  omega

theorem busy_mem {s : State} {j w : Nat} {t : Task} {b : Bool} (h : s.busy[j]? = some (w, t, b)) : t ∈ tasks s := by
  simp only [tasks, List.mem_append, List.mem_map]
  exact .inr ⟨_, List.mem_of_getElem? h, rfl⟩

@[simp] theorem set_mixes (s : State) (n n' : Str) (M : Mem) : (s.set n M).mixes n' = if n' = n then some M else s.mixes n' := rfl
@[simp] theorem set_queue (s : State) (n : Str) (M : Mem) : (s.set n M).queue = s.queue := rfl
@[simp] theorem set_busy (s : State) (n : Str) (M : Mem) : (s.set n M).busy = s.busy := rfl
@[simp] theorem set_holder (s : State) (n : Str) (M : Mem) : (s.set n M).holder = s.holder := rfl
@[simp] theorem set_shufs (s : State) (n : Str) (M : Mem) : (s.set n M).shufs = s.shufs := rfl
@[simp] theorem set_spawned (s : State) (n : Str) (M : Mem) : (s.set n M).spawned = s.spawned := rfl
@[simp] theorem set_output (s : State) (n : Str) (M : Mem) : (s.set n M).output = s.output := rfl
@[simp] theorem set_received (s : State) (n : Str) (M : Mem) : (s.set n M).received = s.received := rfl
@[simp] theorem set_getters (s : State) (n : Str) (M : Mem) : (s.set n M).getters = s.getters := rfl
@[simp] theorem set_crashed (s : State) (n : Str) (M : Mem) : (s.set n M).crashed = s.crashed := rfl
@[simp] theorem set_closed (s : State) (n : Str) (M : Mem) : (s.set n M).closed = s.closed := rfl
@[simp] theorem set_taken (s : State) (n : Str) (M : Mem) : (s.set n M).taken = s.taken := rfl
@[simp] theorem set_calls (s : State) (n : Str) (M : Mem) : (s.set n M).calls = s.calls := rfl

/-- Changing other memory of a mix. -/
theorem TInv.of_set {s s' : State} (h : TInv s) {n : Str} {M M' : Mem} (hM : s.mixes n = some M) (hm : s'.mixes = (s.set n M').mixes) (ht : tasks s' = tasks s)
    (hw : M'.wg = M.wg) (htw : M'.totalWorkload = M.totalWorkload) (hr : M'.totalReceived = M.totalReceived)
    (hh : s'.holder = s.holder) (hb : s'.busy = s.busy) : TInv s' where
  cnt := fun n' N hN => by
    rw [ht]; rw [hm, set_mixes] at hN
    split at hN
    · next e => cases hN; rw [hw, htw, e]; exact h.cnt n M hM
    · exact h.cnt n' N hN
  nd := by rw [ht]; exact h.nd
  low := fun t htt => by
    rw [ht] at htt
    obtain ⟨N, hN, hl⟩ := h.low t htt
    rw [hm, set_mixes]
    by_cases e : t.mix = n
    · rw [e, hM] at hN; cases hN
      exact ⟨M', by rw [if_pos e], by rw [htw]; exact hl⟩
    · exact ⟨N, by rw [if_neg e]; exact hN, hl⟩
  hold := fun g pc rest hp => by
    rw [hh] at hp
    have := h.hold g pc rest hp
    revert this
    cases pc <;> simp only [HoldOk, hm, set_mixes] <;> grind
  bid := by rw [hb]; exact h.bid
  bval := by rw [hb]; exact h.bval

theorem hTasks_eq {s : State} {g : Nat} {pc : HPc} {rest : List Messages} (h : s.holder = some (g, pc, rest)) : hTasks s = holderTasks pc := by
  rw [hTasks, h]

set_option maxHeartbeats 1000000 in
theorem TInv.add {env : Env} {s s' : State} {evs : List Ev} (h : TInv s) (hs : AddStep env s evs s') (hc : s'.crashed = false) : TInv s' := by
  cases hs with
  | lock ms hh =>
    refine h.of_perm rfl ?_ ?_ h.bid h.bval
    · simp [tasks, hTasks, hh, holderTasks]
    · intro g pc rest e; cases e; trivial
  | unlock hh =>
    refine h.of_perm rfl ?_ (by intro g pc rest e; cases e) h.bid h.bval
    simp [tasks, hTasks, hh, holderTasks]
  | unknown hh hn => simp [State.crash] at hc
  | @batch g m rest hh hn =>
    refine h.of_perm rfl ?_ ?_ h.bid h.bval
    · simp [tasks, hTasks, hh, holderTasks]
    · intro g pc rest e; cases e
      exact ⟨Option.ne_none_iff_exists'.1 hn, by simp⟩
  | index hh hM =>
    have := h.hold _ _ _ hh
    refine h.of_perm rfl ?_ ?_ h.bid h.bval
    · simp [tasks, hTasks, hh, holderTasks]
    · intro g pc rest e; cases e
      exact ⟨⟨_, hM, rfl⟩, this.2⟩
  | load hh hM =>
    obtain ⟨⟨M', hM', hi⟩, ht⟩ := h.hold _ _ _ hh
    refine h.of_perm rfl ?_ ?_ h.bid h.bval
    · simp [tasks, hTasks, hh, holderTasks]
    · intro g pc rest e; cases e
      rw [hM] at hM'; cases hM'
      exact ⟨⟨_, hM, hi, rfl⟩, ht⟩
  | @store g m o os acc i v rest M hh hM =>
    obtain ⟨⟨M', hM', hi, hv⟩, ht⟩ := h.hold _ _ _ hh
    rw [hM] at hM'; cases hM'
    subst hi hv
    have htk : tasks s = acc ++ s.queue ++ s.busy.map (·.2.1) := by simp [tasks, hTasks, hh, holderTasks]
    have hp : (({ s.set m.logicalReceiver { M with totalWorkload := M.totalWorkload - 1 } with
        holder := some (g, .idx m os (acc ++ [⟨m.logicalReceiver, o, M.totalWorkload - 1⟩]), rest) } : State) |> tasks).Perm
        (⟨m.logicalReceiver, o, M.totalWorkload - 1⟩ :: tasks s) := by
      rw [htk]
      simp only [tasks, hTasks, holderTasks, set_queue, set_busy]
      rw [List.append_assoc, List.append_assoc, List.append_assoc]
      exact List.perm_middle
    refine ⟨?_, ?_, ?_, ?_, h.bid, h.bval⟩
    · intro n N hN
      rw [hp.countP_eq, List.countP_cons]
      simp only [set_mixes] at hN
      split at hN
      · next e =>
        cases hN
        have := h.cnt n M (by rw [e]; exact hM)
        simp only [isLive, e, true_and, decide_eq_true_eq] at this ⊢
        rcases lt_or_ge 0 M.totalWorkload with h0 | h0
        · rw [if_pos (by omega)]
          rw [max_eq_left (by omega)] at this ⊢
          push_cast; omega
        · rw [if_neg (by omega)]
          rw [max_eq_right (by omega)] at this ⊢
          push_cast; omega
      · next e =>
        have := h.cnt n N hN
        have e' : ¬ m.logicalReceiver = n := fun hh => e hh.symm
        simp [isLive, e'] at this ⊢
        exact this
    · refine hp.symm.pairwise ?_ (fun hxy e => (hxy e.symm).symm)
      refine List.pairwise_cons.2 ⟨fun u hu e => ?_, h.nd⟩
      obtain ⟨N, hN, hl⟩ := h.low u hu
      dsimp only at e ⊢
      rw [← e, hM] at hN; cases hN
      omega
    · intro t htt
      simp only [set_mixes]
      rcases List.mem_cons.1 (hp.mem_iff.1 htt) with rfl | htt
      · exact ⟨_, if_pos rfl, le_refl _⟩
      · obtain ⟨N, hN, hl⟩ := h.low t htt
        by_cases e : t.mix = m.logicalReceiver
        · rw [e, hM] at hN; cases hN
          exact ⟨_, if_pos e, by dsimp only; omega⟩
        · exact ⟨N, by rw [if_neg e]; exact hN, hl⟩
    · intro g pc rest e; cases e
      refine ⟨⟨_, if_pos rfl⟩, ?_⟩
      intro t htt
      rcases List.mem_append.1 htt with htt | htt
      · exact ht t htt
      · simp at htt; rw [htt]
  | count hh hM =>
    have := h.hold _ _ _ hh
    refine h.of_perm rfl ?_ ?_ h.bid h.bval
    · simp [tasks, hTasks, hh, holderTasks]
    · intro g pc rest e; cases e
      exact ⟨⟨_, hM, rfl⟩, this.2⟩
  | @counted g m acc v rest M hh hM =>
    have hho := h.hold _ _ _ hh
    have htk : tasks s = acc ++ s.queue ++ s.busy.map (·.2.1) := by simp [tasks, hTasks, hh, holderTasks]
    refine ⟨?_, ?_, ?_, ?_, h.bid, h.bval⟩
    · intro n N hN
      simp only [set_mixes] at hN
      have : tasks ({ s.set m.logicalReceiver { M with totalReceived := GoMap.insert M.totalReceived (m.physicalSender, m.logicalSender) (v + m.messages.length) } with
            holder := some (g, .push m.logicalReceiver acc, rest) } : State) = tasks s := by rw [htk]; rfl
      rw [this]
      split at hN
      · next e => cases hN; rw [e]; exact h.cnt _ M hM
      · exact h.cnt n N hN
    · have := h.nd; rw [htk] at this; exact this
    · intro t htt
      obtain ⟨N, hN, hl⟩ := h.low t (by rw [htk]; exact htt)
      simp only [set_mixes]
      by_cases e : t.mix = m.logicalReceiver
      · rw [e, hM] at hN; cases hN
        exact ⟨_, if_pos e, hl⟩
      · exact ⟨N, by rw [if_neg e]; exact hN, hl⟩
    · intro g pc rest e; cases e
      exact ⟨⟨_, if_pos rfl⟩, hho.2⟩
  | pushClosed hh hcl => simp [State.crash] at hc
  | @push g n t ts rest hh hcl hcap =>
    have := h.hold _ _ _ hh
    refine h.of_perm rfl ?_ ?_ h.bid h.bval
    · simp only [tasks, hTasks, hh, holderTasks]
      refine List.Perm.append_right _ ?_
      rw [← List.append_assoc]
      exact (List.perm_append_singleton t (ts ++ s.queue)).symm
    · intro g pc rest e; cases e
      exact ⟨this.1, fun u hu => this.2 u (List.mem_cons_of_mem _ hu)⟩
  | check order hh hM ho =>
    refine h.of_perm rfl ?_ ?_ h.bid h.bval
    · simp [tasks, hTasks, hh, holderTasks]
    · intro g pc rest e; cases e; exact ⟨_, hM⟩
  | same hh hM hv =>
    refine h.of_perm rfl ?_ ?_ h.bid h.bval
    · simp [tasks, hTasks, hh, holderTasks]
    · intro g pc rest e; cases e; exact ⟨_, hM⟩
  | differs hh hM hv =>
    refine h.of_perm rfl ?_ ?_ h.bid h.bval
    · simp [tasks, hTasks, hh, holderTasks]
    · intro g pc rest e; cases e; trivial
  | spawn hh =>
    refine h.of_perm rfl ?_ ?_ h.bid h.bval
    · simp [tasks, hTasks, hh, holderTasks]
    · intro g pc rest e; cases e; trivial

theorem set_map_same {α β : Type} (f : α → β) (l : List α) (j : Nat) (x y : α) (h : l[j]? = some x) (hf : f y = f x) : (l.set j y).map f = l.map f := by
  apply List.ext_getElem?
  intro i
  rw [List.getElem?_map, List.getElem?_map, List.getElem?_set]
  split
  · next e =>
    subst e
    rw [h]
    have := (List.getElem?_eq_some_iff.1 h).1
    simp [this, hf]
  · rfl

set_option maxHeartbeats 1000000 in
theorem TInv.work {env : Env} {s s' : State} {evs : List Ev} (h : TInv s) (hs : WorkStep env s evs s') (hc : s'.crashed = false) : TInv s' := by
  cases hs with
  | @take t q w hq hw hidle =>
    refine h.of_perm rfl ?_ (fun g pc rest hh => h.hold g pc rest hh) ?_ ?_
    · show (hTasks s ++ s.queue ++ s.busy.map (·.2.1)).Perm (hTasks s ++ q ++ (s.busy ++ [(w, t, false)]).map (·.2.1))
      rw [hq, List.map_append, List.append_assoc, List.append_assoc]
      refine List.Perm.append_left _ ?_
      show (t :: (q ++ s.busy.map (·.2.1))).Perm (q ++ (s.busy.map (·.2.1) ++ [t]))
      rw [← List.append_assoc]
      exact (List.perm_append_singleton t _).symm
    · rw [List.map_append, List.nodup_append]
      refine ⟨h.bid, by simp, ?_⟩
      intro a ha b hb e
      obtain ⟨x, hx, rfl⟩ := List.mem_map.1 ha
      simp at hb
      exact hidle x hx (e.trans hb)
    · intro w' t' hm
      rcases List.mem_append.1 hm with hm | hm
      · exact h.bval _ _ hm
      · simp at hm
  | panic hj hp => simp [State.crash] at hc
  | range hj hM hi => simp [State.crash] at hc
  | @write j w t M hj hp hM hi =>
    have h1 : (s.busy.set j (w, t, true)).map (·.2.1) = s.busy.map (·.2.1) := set_map_same _ _ _ _ _ hj rfl
    have h2 : (s.busy.set j (w, t, true)).map (·.1) = s.busy.map (·.1) := set_map_same _ _ _ _ _ hj rfl
    have h' : TInv (s.set t.mix { M with outputs := M.outputs.set t.idx.toNat (Mixer.resultOf env t.input) }) := h.of_set hM rfl rfl rfl rfl rfl rfl rfl
    refine h'.of_perm rfl ?_ (fun g pc rest hh => h'.hold g pc rest hh) (by rw [h2]; exact h.bid) ?_
    · show (hTasks s ++ s.queue ++ s.busy.map (·.2.1)).Perm (hTasks s ++ s.queue ++ (s.busy.set j (w, t, true)).map (·.2.1))
      rw [h1]
    · intro w' t' hm
      rcases List.mem_or_eq_of_mem_set hm with hm | hm
      · exact h.bval _ _ hm
      · cases hm; exact hi.1
  | negative hj hM hg => simp [State.crash] at hc
  | @done j w t M hj hM hg =>
    have hp : (tasks s).Perm (t :: (hTasks s ++ s.queue ++ (s.busy.eraseIdx j).map (·.2.1))) := by
      rw [← List.eraseIdx_map]
      have := Mixer.perm_eraseIdx (s.busy.map (·.2.1)) j t (by rw [List.getElem?_map, hj]; rfl)
      exact (List.Perm.append_left _ this).trans List.perm_middle
    have hv := h.bval w t (List.mem_of_getElem? hj)
    have hnd := hp.pairwise h.nd (fun hxy e => (hxy e.symm).symm)
    refine ⟨?_, (List.pairwise_cons.1 hnd).2, ?_, ?_, ?_, ?_⟩
    · intro n N hN
      show (((hTasks s ++ s.queue ++ (s.busy.eraseIdx j).map (·.2.1)).countP (isLive n) : Nat) : Int) + _ = _
      simp only [set_mixes] at hN
      split at hN
      · next e =>
        cases hN
        have := h.cnt n M (by rw [e]; exact hM)
        rw [hp.countP_eq, List.countP_cons] at this
        simp only [isLive, e, hv, and_self, decide_true, if_true] at this ⊢
        push_cast at this
        omega
      · next e =>
        have := h.cnt n N hN
        rw [hp.countP_eq, List.countP_cons] at this
        have e' : ¬ t.mix = n := fun hh => e hh.symm
        simp [isLive, e'] at this ⊢
        exact this
    · intro u hu
      obtain ⟨N, hN, hl⟩ := h.low u (hp.mem_iff.2 (List.mem_cons_of_mem _ hu))
      simp only [set_mixes]
      by_cases e : u.mix = t.mix
      · rw [e, hM] at hN; cases hN
        exact ⟨_, if_pos e, hl⟩
      · exact ⟨N, by rw [if_neg e]; exact hN, hl⟩
    · intro g pc rest hh
      have := h.hold g pc rest hh
      revert this
      cases pc <;> simp only [HoldOk, set_mixes] <;> grind
    · rw [← List.eraseIdx_map]
      exact h.bid.sublist (List.eraseIdx_sublist ..)
    · intro w' t' hm
      exact h.bval _ _ (List.mem_of_mem_eraseIdx hm)

theorem TInv.shuf {env : Env} {s s' : State} {evs : List Ev} (h : TInv s) (hs : ShufStep env s evs s') (hc : s'.crashed = false) : TInv s' := by
  cases hs with
  | badIndex => simp [State.crash] at hc
  | first hj hM ho => exact h.of_set hM rfl rfl rfl rfl rfl rfl rfl
  | put hj hM hi hk hx => exact h.of_set hM rfl rfl rfl rfl rfl rfl rfl
  | signal hj hM hi => exact h.of_set hM rfl rfl rfl rfl rfl rfl rfl
  | leave hj hM => exact h.of_set hM rfl rfl rfl rfl rfl rfl rfl
  | _ => exact h.of_perm rfl (.refl _) (fun g pc rest hh => h.hold g pc rest hh) h.bid h.bval

theorem TInv.read {s s' : State} {evs : List Ev} (h : TInv s) (hs : ReadStep s evs s') (hc : s'.crashed = false) : TInv s' := by
  cases hs with
  | closed => simp [State.crash] at hc
  | _ => exact h.of_perm rfl (.refl _) (fun g pc rest hh => h.hold g pc rest hh) h.bid h.bval

end Resmix.MixerFine
