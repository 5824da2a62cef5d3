import Verif.Proofs.FineA
set_option autoImplicit false
/- Control of the shuffling goroutines and readers of the fine-grained mixer (C122, C123). -/
namespace Resmix.MixerFine
open Resmix.Mixer (Messages Task Env)
open Resmix.Race

/-- What a goroutine in shuffleAndSend knows of its mix. -/
def ShufOk (M : Mem) : SPc → Prop
  | .start => True
  | .enter => M.wg = 0
  | .copy orig => M.once = .running ∧ M.shuffleWait = 1 ∧ orig = M.outputs.take orig.length
  | .put orig p words i => M.once = .running ∧ M.shuffleWait = 1 ∧ orig.length = M.outputs.length ∧ i ≤ orig.length ∧
      (∃ rest, Shuffle.permutation Shuffle.scripted words orig.length = .ok (p, rest)) ∧
      ∀ (j : Nat), M.outputs[j]? = if j < i then (p[j]?).bind (fun k => orig[k]?) else orig[j]?
  | .leave => M.once = .running ∧ M.shuffleWait = 0
  | .after => M.once = .done
  | .wait => M.once = .done ∧ M.isLastLayer = false
  | .send => M.once = .done ∧ M.isLastLayer = false

/-- In the function of Once.Do. -/
def isBody : SPc → Prop
  | .copy _ => True
  | .put _ _ _ _ => True
  | .leave => True
  | _ => False

structure MixOk (s : State) (n : Str) (M : Mem) : Prop where
  fresh : M.once = .fresh → M.shuffleWait = 1
  wg : M.once ≠ .fresh → M.wg = 0
  done : M.once = .done → M.shuffleWait = 0
  running : M.once = .running → ∃ g pc, (g, n, pc) ∈ s.shufs ∧ isBody pc
  sw : M.shuffleWait = 0 ∨ M.shuffleWait = 1

def GetOk (M : Mem) : GPc → Prop
  | .start => True
  | .wait => M.wg = 0
  | .reading => M.shuffleWait = 0

structure SInv (s : State) : Prop where
  ids : (s.shufs.map (·.1)).Nodup
  lt : ∀ g n pc, (g, n, pc) ∈ s.shufs → g < s.spawned
  ok : ∀ g n pc, (g, n, pc) ∈ s.shufs → ∃ M, s.mixes n = some M ∧ ShufOk M pc
  body : ∀ g g' n pc pc', (g, n, pc) ∈ s.shufs → (g', n, pc') ∈ s.shufs → isBody pc → isBody pc' → g = g'
  mix : ∀ n M, s.mixes n = some M → MixOk s n M
  get : ∀ n pc, (n, pc) ∈ s.getters → ∃ M, s.mixes n = some M ∧ GetOk M pc
  out : ∀ n, n ∈ s.received ++ s.output → ∃ M, s.mixes n = some M ∧ M.once = .done ∧ M.isLastLayer = false

section lists
variable {l : List (Nat × Str × SPc)} {j g : Nat} {n : Str} {pc pc' : SPc}

theorem ids_unique (h : (l.map (·.1)).Nodup) {a b : Nat × Str × SPc} (ha : a ∈ l) (hb : b ∈ l) (e : a.1 = b.1) : a = b := by
  obtain ⟨i, hi, rfl⟩ := List.mem_iff_getElem.1 ha
  obtain ⟨k, hk, rfl⟩ := List.mem_iff_getElem.1 hb
  have := (List.Nodup.getElem_inj_iff h (i := i) (j := k) (hi := by simpa using hi) (hj := by simpa using hk)).1 (by simpa using e)
  subst this; rfl

theorem mem_set_ids (h : (l.map (·.1)).Nodup) (hj : l[j]? = some (g, n, pc)) {e : Nat × Str × SPc} :
    e ∈ l.set j (g, n, pc') ↔ e = (g, n, pc') ∨ (e ∈ l ∧ e.1 ≠ g) := by
  have hlt := (List.getElem?_eq_some_iff.1 hj).1
  constructor
  · intro he
    obtain ⟨i, hi⟩ := List.mem_iff_getElem?.1 he
    rw [List.getElem?_set] at hi
    split at hi
    · simp [hlt] at hi; exact .inl hi.symm
    · next hne =>
      refine .inr ⟨List.mem_of_getElem? hi, fun e1 => hne ?_⟩
      have hil := (List.getElem?_eq_some_iff.1 hi)
      have hjl := (List.getElem?_eq_some_iff.1 hj)
      obtain ⟨a, ha⟩ := hil; obtain ⟨b, hb⟩ := hjl
      exact (List.Nodup.getElem_inj_iff h (i := j) (j := i) (hi := by simpa using b) (hj := by simpa using a)).1 (by simp [ha, hb, e1])
  · rintro (rfl | ⟨he, hne⟩)
    · exact List.mem_iff_getElem?.2 ⟨j, by simp [hlt]⟩
    · obtain ⟨i, hi⟩ := List.mem_iff_getElem?.1 he
      refine List.mem_iff_getElem?.2 ⟨i, ?_⟩
      rw [List.getElem?_set, if_neg]
      · exact hi
      · rintro rfl; rw [hj] at hi; cases hi; exact hne rfl

theorem mem_erase_ids (h : (l.map (·.1)).Nodup) (hj : l[j]? = some (g, n, pc)) {e : Nat × Str × SPc} :
    e ∈ l.eraseIdx j ↔ (e ∈ l ∧ e.1 ≠ g) := by
  have hp := Mixer.perm_eraseIdx l j _ hj
  have hnd : (((g, n, pc) :: l.eraseIdx j).map (·.1)).Nodup := ((hp.map _).nodup_iff).1 h
  rw [List.map_cons, List.nodup_cons] at hnd
  rw [hp.mem_iff, List.mem_cons]
  constructor
  · intro he
    exact ⟨.inr he, fun e1 => hnd.1 (List.mem_map.2 ⟨e, he, e1⟩)⟩
  · rintro ⟨rfl | he, hne⟩
    · exact absurd rfl hne
    · exact he

theorem set_ids (hj : l[j]? = some (g, n, pc)) : (l.set j (g, n, pc')).map (·.1) = l.map (·.1) := set_map_same _ _ _ _ _ hj rfl

end lists

/-- What the shuffling goroutines and readers see of a mix. -/
def core (M : Mem) : Bool × List Bytes × Int × Int × OnceSt := (M.isLastLayer, M.outputs, M.wg, M.shuffleWait, M.once)

theorem SInv.of_core {s s' : State} (h : SInv s) (hm : ∀ n, (s'.mixes n).map core = (s.mixes n).map core) (h1 : s'.shufs = s.shufs)
    (h2 : s'.spawned = s.spawned) (h3 : s'.getters = s.getters) (h4 : s'.output = s.output) (h5 : s'.received = s.received) : SInv s' := by
  have hto : ∀ n M, s.mixes n = some M → ∃ M', s'.mixes n = some M' ∧ core M' = core M := by
    intro n M hM
    have := hm n; rw [hM] at this
    cases e : s'.mixes n with
    | none => rw [e] at this; cases this
    | some M' => rw [e] at this; exact ⟨M', rfl, by simpa using this⟩
  have hfrom : ∀ n M, s'.mixes n = some M → ∃ M', s.mixes n = some M' ∧ core M' = core M := by
    intro n M hM
    have := hm n; rw [hM] at this
    cases e : s.mixes n with
    | none => rw [e] at this; cases this
    | some M' => rw [e] at this; exact ⟨M', rfl, by simpa using this.symm⟩
  simp only [core, Prod.mk.injEq] at hto hfrom
  refine ⟨by rw [h1]; exact h.ids, by rw [h1, h2]; exact h.lt, ?_, by rw [h1]; exact h.body, ?_, ?_, ?_⟩
  · intro g n pc he
    rw [h1] at he
    obtain ⟨M, hM, ho⟩ := h.ok g n pc he
    obtain ⟨M', hM', e1, e2, e3, e4, e5⟩ := hto n M hM
    refine ⟨M', hM', ?_⟩
    revert ho; cases pc <;> simp only [ShufOk, e1, e2, e3, e4, e5] <;> exact id
  · intro n M hM
    obtain ⟨M', hM', e1, e2, e3, e4, e5⟩ := hfrom n M hM
    have := h.mix n M' hM'
    exact ⟨by rw [← e4, ← e5]; exact this.fresh, by rw [← e3, ← e5]; exact this.wg, by rw [← e4, ← e5]; exact this.done,
      by rw [← e5, h1]; exact this.running, by rw [← e4]; exact this.sw⟩
  · intro n pc he
    rw [h3] at he
    obtain ⟨M, hM, ho⟩ := h.get n pc he
    obtain ⟨M', hM', e1, e2, e3, e4, e5⟩ := hto n M hM
    refine ⟨M', hM', ?_⟩
    revert ho; cases pc <;> simp only [GetOk, e3, e4] <;> exact id
  · intro n hn
    rw [h4, h5] at hn
    obtain ⟨M, hM, ho, hl⟩ := h.out n hn
    obtain ⟨M', hM', e1, e2, e3, e4, e5⟩ := hto n M hM
    exact ⟨M', hM', by rw [e5]; exact ho, by rw [e1]; exact hl⟩

theorem set_core {s : State} {n : Str} {M M' : Mem} (hM : s.mixes n = some M) (hc : core M' = core M) (n' : Str) :
    ((s.set n M').mixes n').map core = (s.mixes n').map core := by
  rw [set_mixes]; split
  · next e => rw [e, hM]; simp [hc]
  · rfl

theorem SInv.add {env : Env} {s s' : State} {evs : List Ev} (h : SInv s) (ht : TInv s) (hs : AddStep env s evs s') (hc : s'.crashed = false) : SInv s' := by
  cases hs with
  | unknown => simp [State.crash] at hc
  | pushClosed => simp [State.crash] at hc
  | store hh hM => exact h.of_core (set_core hM rfl) rfl rfl rfl rfl rfl
  | counted hh hM => exact h.of_core (set_core hM rfl) rfl rfl rfl rfl rfl
  | @spawn g n rest hh =>
    obtain ⟨M, hM⟩ := ht.hold _ _ _ hh
    refine ⟨?_, ?_, ?_, ?_, ?_, h.get, h.out⟩
    · show ((s.shufs ++ [(s.spawned, n, SPc.start)]).map (fun e => e.1)).Nodup
      rw [List.map_append, List.nodup_append]
      refine ⟨h.ids, by simp, ?_⟩
      intro a ha b hb e
      obtain ⟨⟨g, n', pc⟩, hx, rfl⟩ := List.mem_map.1 ha
      simp at hb
      have := h.lt _ _ _ hx
      dsimp only at e; omega
    · intro g n' pc he
      show g < s.spawned + 1
      rcases List.mem_append.1 he with he | he
      · have := h.lt _ _ _ he; omega
      · simp at he; omega
    · intro g n' pc he
      rcases List.mem_append.1 he with he | he
      · exact h.ok _ _ _ he
      · simp at he; obtain ⟨rfl, rfl, rfl⟩ := he; exact ⟨M, hM, trivial⟩
    · intro g g' n' pc pc' he he' hb hb'
      rcases List.mem_append.1 he with he | he
      · rcases List.mem_append.1 he' with he' | he'
        · exact h.body _ _ _ _ _ he he' hb hb'
        · simp at he'; obtain ⟨rfl, rfl, rfl⟩ := he'; cases hb'
      · simp at he; obtain ⟨rfl, rfl, rfl⟩ := he; cases hb
    · intro n' N hN
      have := h.mix n' N hN
      refine ⟨this.fresh, this.wg, this.done, fun hr => ?_, this.sw⟩
      obtain ⟨g', pc, he, hb⟩ := this.running hr
      exact ⟨g', pc, List.mem_append_left _ he, hb⟩
  | _ => exact h.of_core (fun _ => rfl) rfl rfl rfl rfl rfl

set_option maxHeartbeats 1000000 in
theorem SInv.work {env : Env} {s s' : State} {evs : List Ev} (h : SInv s) (ht : TInv s) (hs : WorkStep env s evs s') (hc : s'.crashed = false) : SInv s' := by
  cases hs with
  | take w hq hw hidle => exact h.of_core (fun _ => rfl) rfl rfl rfl rfl rfl
  | panic => simp [State.crash] at hc
  | range => simp [State.crash] at hc
  | negative => simp [State.crash] at hc
  | @write j w t M hj hp hM hi =>
    have hw := ht.wg_pos (busy_mem hj) hM hi.1
    have hf : M.once = .fresh := by
      by_contra hne; have := (h.mix _ _ hM).wg hne; omega
    refine ⟨h.ids, h.lt, ?_, h.body, ?_, ?_, ?_⟩
    · intro g n pc he
      obtain ⟨N, hN, ho⟩ := h.ok g n pc he
      by_cases e : n = t.mix
      · subst e
        rw [hM] at hN; cases hN
        refine ⟨_, if_pos rfl, ?_⟩
        revert ho; cases pc <;> simp only [ShufOk] <;> grind
      · exact ⟨N, by simp only [set_mixes, if_neg e]; exact hN, ho⟩
    · intro n N hN
      simp only [set_mixes] at hN
      split at hN
      · next e =>
        cases hN; subst e
        have := h.mix _ _ hM
        exact ⟨this.fresh, this.wg, this.done, this.running, this.sw⟩
      · have := h.mix _ _ hN
        exact ⟨this.fresh, this.wg, this.done, this.running, this.sw⟩
    · intro n pc he
      obtain ⟨N, hN, ho⟩ := h.get n pc he
      by_cases e : n = t.mix
      · subst e
        rw [hM] at hN; cases hN
        refine ⟨_, if_pos rfl, ?_⟩
        revert ho; cases pc <;> simp only [GetOk] <;> exact id
      · exact ⟨N, by simp only [set_mixes, if_neg e]; exact hN, ho⟩
    · intro n hn
      obtain ⟨N, hN, ho⟩ := h.out n hn
      by_cases e : n = t.mix
      · subst e
        rw [hM] at hN; cases hN
        rw [hf] at ho; cases ho.1
      · exact ⟨N, by simp only [set_mixes, if_neg e]; exact hN, ho⟩
  | @done j w t M hj hM hg =>
    have hw : ¬ M.wg = 0 := by omega
    have hf : M.once = .fresh := by
      by_contra hne; have := (h.mix _ _ hM).wg hne; omega
    refine ⟨h.ids, h.lt, ?_, h.body, ?_, ?_, ?_⟩
    · intro g n pc he
      obtain ⟨N, hN, ho⟩ := h.ok g n pc he
      by_cases e : n = t.mix
      · subst e
        rw [hM] at hN; cases hN
        refine ⟨_, if_pos rfl, ?_⟩
        revert ho; cases pc <;> simp only [ShufOk] <;> grind
      · exact ⟨N, by simp only [set_mixes, if_neg e]; exact hN, ho⟩
    · intro n N hN
      simp only [set_mixes] at hN
      split at hN
      · next e =>
        cases hN; subst e
        have := h.mix _ _ hM
        exact ⟨this.fresh, by simp [hf], this.done, this.running, this.sw⟩
      · have := h.mix _ _ hN
        exact ⟨this.fresh, this.wg, this.done, this.running, this.sw⟩
    · intro n pc he
      obtain ⟨N, hN, ho⟩ := h.get n pc he
      by_cases e : n = t.mix
      · subst e
        rw [hM] at hN; cases hN
        refine ⟨_, if_pos rfl, ?_⟩
        revert ho; cases pc <;> simp only [GetOk] <;> grind
      · exact ⟨N, by simp only [set_mixes, if_neg e]; exact hN, ho⟩
    · intro n hn
      obtain ⟨N, hN, ho⟩ := h.out n hn
      by_cases e : n = t.mix
      · subst e
        rw [hM] at hN; cases hN
        rw [hf] at ho; cases ho.1
      · exact ⟨N, by simp only [set_mixes, if_neg e]; exact hN, ho⟩

/-- A goroutine moves on, its mix keeps or changes its memory. -/
theorem SInv.move {s s' : State} (h : SInv s) {j g : Nat} {n : Str} {pc pc' : SPc} {M M' : Mem} (hj : s.shufs[j]? = some (g, n, pc)) (hM : s.mixes n = some M)
    (hm : ∀ n', s'.mixes n' = if n' = n then some M' else s.mixes n')
    (hsh : s'.shufs = s.shufs.set j (g, n, pc')) (hsp : s'.spawned = s.spawned) (hge : s'.getters = s.getters) (hou : s'.output = s.output)
    (hre : s'.received = s.received)
    (hok : ShufOk M' pc')
    (hoth : ∀ g' qc, (g', n, qc) ∈ s.shufs → g' ≠ g → ShufOk M qc → ShufOk M' qc)
    (hbody : isBody pc' → isBody pc ∨ ∀ g' qc, (g', n, qc) ∈ s.shufs → ¬ isBody qc)
    (hrun : M'.once = .running → isBody pc' ∨ (M.once = .running ∧ ¬ isBody pc))
    (hmix : (M'.once = .fresh → M'.shuffleWait = 1) ∧ (M'.once ≠ .fresh → M'.wg = 0) ∧ (M'.once = .done → M'.shuffleWait = 0) ∧
      (M'.shuffleWait = 0 ∨ M'.shuffleWait = 1))
    (hget : ∀ qc, GetOk M qc → GetOk M' qc) (hdone : M.once = .done → M'.once = .done) (hlast : M'.isLastLayer = M.isLastLayer) : SInv s' := by
  have hmem : (g, n, pc) ∈ s.shufs := List.mem_of_getElem? hj
  have hmi : ∀ e, e ∈ s'.shufs ↔ e = (g, n, pc') ∨ (e ∈ s.shufs ∧ e.1 ≠ g) := fun e => by rw [hsh]; exact mem_set_ids h.ids hj
  refine ⟨?_, ?_, ?_, ?_, ?_, ?_, ?_⟩
  · rw [hsh, set_ids hj]; exact h.ids
  · intro g' n' qc he
    rw [hsp]
    rcases (hmi _).1 he with e | ⟨he, -⟩
    · cases e; exact h.lt _ _ _ hmem
    · exact h.lt _ _ _ he
  · intro g' n' qc he
    rcases (hmi _).1 he with e | ⟨he, hne⟩
    · cases e; exact ⟨M', by rw [hm, if_pos rfl], hok⟩
    · obtain ⟨N, hN, ho⟩ := h.ok _ _ _ he
      by_cases e : n' = n
      · subst e; rw [hM] at hN; cases hN
        exact ⟨M', by rw [hm, if_pos rfl], hoth _ _ he hne ho⟩
      · exact ⟨N, by rw [hm, if_neg e]; exact hN, ho⟩
  · intro g1 g2 n' p1 p2 h1 h2 b1 b2
    rcases (hmi _).1 h1 with e1 | ⟨h1, ne1⟩ <;> rcases (hmi _).1 h2 with e2 | ⟨h2, ne2⟩
    · cases e1; cases e2; rfl
    · cases e1
      rcases hbody b1 with hb | hb
      · exact h.body _ _ _ _ _ hmem h2 hb b2
      · exact absurd b2 (hb _ _ h2)
    · cases e2
      rcases hbody b2 with hb | hb
      · exact h.body _ _ _ _ _ h1 hmem b1 hb
      · exact absurd b1 (hb _ _ h1)
    · exact h.body _ _ _ _ _ h1 h2 b1 b2
  · intro n' N hN
    rw [hm] at hN
    split at hN
    · next e =>
      cases hN; subst e
      refine ⟨hmix.1, hmix.2.1, hmix.2.2.1, fun hr => ?_, hmix.2.2.2⟩
      rcases hrun hr with hb | ⟨hr, hnb⟩
      · exact ⟨g, pc', (hmi _).2 (.inl rfl), hb⟩
      · obtain ⟨g', qc, he, hb⟩ := (h.mix _ _ hM).running hr
        refine ⟨g', qc, (hmi _).2 (.inr ⟨he, ?_⟩), hb⟩
        rintro (e : g' = g)
        subst e
        have := ids_unique h.ids he hmem rfl
        cases this; exact hnb hb
    · next hne =>
      have := h.mix _ _ hN
      refine ⟨this.fresh, this.wg, this.done, fun hr => ?_, this.sw⟩
      obtain ⟨g', qc, he, hb⟩ := this.running hr
      refine ⟨g', qc, (hmi _).2 (.inr ⟨he, ?_⟩), hb⟩
      rintro (e : g' = g)
      subst e
      have := ids_unique h.ids he hmem rfl
      cases this; exact hne rfl
  · intro n' qc he
    rw [hge] at he
    obtain ⟨N, hN, ho⟩ := h.get _ _ he
    by_cases e : n' = n
    · subst e; rw [hM] at hN; cases hN
      exact ⟨M', by rw [hm, if_pos rfl], hget _ ho⟩
    · exact ⟨N, by rw [hm, if_neg e]; exact hN, ho⟩
  · intro n' hn
    rw [hou, hre] at hn
    obtain ⟨N, hN, ho, hl⟩ := h.out _ hn
    by_cases e : n' = n
    · subst e; rw [hM] at hN; cases hN
      exact ⟨M', by rw [hm, if_pos rfl], hdone ho, hlast.trans hl⟩
    · exact ⟨N, by rw [hm, if_neg e]; exact hN, ho, hl⟩

theorem same_mixes {s : State} {n : Str} {M : Mem} (hM : s.mixes n = some M) (n' : Str) : s.mixes n' = if n' = n then some M else s.mixes n' := by
  split
  · next e => rw [e]; exact hM
  · rfl

/-- A goroutine moves on outside Once.Do. -/
theorem SInv.stay {s s' : State} (h : SInv s) {j g : Nat} {n : Str} {pc pc' : SPc} {M : Mem} (hj : s.shufs[j]? = some (g, n, pc)) (hM : s.mixes n = some M)
    (hm : s'.mixes = s.mixes)
    (hsh : s'.shufs = s.shufs.set j (g, n, pc')) (hsp : s'.spawned = s.spawned) (hge : s'.getters = s.getters) (hou : s'.output = s.output)
    (hre : s'.received = s.received) (hok : ShufOk M pc') (hb : isBody pc ↔ isBody pc') : SInv s' := by
  have hmx := h.mix _ _ hM
  refine h.move (M' := M) hj hM (by rw [hm]; exact same_mixes hM) hsh hsp hge hou hre hok (fun _ _ _ _ => id) (fun hb' => .inl (hb.2 hb')) ?_
    ⟨hmx.fresh, hmx.wg, hmx.done, hmx.sw⟩ (fun _ => id) id rfl
  intro hr
  by_cases hb' : isBody pc
  · exact .inl (hb.1 hb')
  · exact .inr ⟨hr, hb'⟩

theorem SInv.erase {s s' : State} (h : SInv s) {j g : Nat} {n : Str} {pc : SPc} {M : Mem} (hj : s.shufs[j]? = some (g, n, pc)) (hM : s.mixes n = some M)
    (hm : s'.mixes = s.mixes) (hsh : s'.shufs = s.shufs.eraseIdx j) (hsp : s'.spawned = s.spawned) (hge : s'.getters = s.getters)
    (hb : ¬ isBody pc) (hou : ∀ n', n' ∈ s'.received ++ s'.output → n' ∈ s.received ++ s.output ∨ (n' = n ∧ M.once = .done ∧ M.isLastLayer = false)) : SInv s' := by
  have hmem : (g, n, pc) ∈ s.shufs := List.mem_of_getElem? hj
  have hmi : ∀ e, e ∈ s'.shufs ↔ (e ∈ s.shufs ∧ e.1 ≠ g) := fun e => by rw [hsh]; exact mem_erase_ids h.ids hj
  refine ⟨?_, ?_, ?_, ?_, ?_, ?_, ?_⟩
  · rw [hsh, ← List.eraseIdx_map]; exact h.ids.sublist (List.eraseIdx_sublist ..)
  · intro g' n' qc he; rw [hsp]; exact h.lt _ _ _ ((hmi _).1 he).1
  · intro g' n' qc he; rw [hm]; exact h.ok _ _ _ ((hmi _).1 he).1
  · intro g1 g2 n' p1 p2 h1 h2 b1 b2
    exact h.body _ _ _ _ _ ((hmi _).1 h1).1 ((hmi _).1 h2).1 b1 b2
  · intro n' N hN
    rw [hm] at hN
    have := h.mix _ _ hN
    refine ⟨this.fresh, this.wg, this.done, fun hr => ?_, this.sw⟩
    obtain ⟨g', qc, he, hb'⟩ := this.running hr
    refine ⟨g', qc, (hmi _).2 ⟨he, ?_⟩, hb'⟩
    rintro (e : g' = g)
    subst e
    have := ids_unique h.ids he hmem rfl
    cases this; exact hb hb'
  · rw [hm, hge]; exact h.get
  · intro n' hn
    rw [hm]
    rcases hou n' hn with hn | ⟨rfl, h1, h2⟩
    · exact h.out _ hn
    · exact ⟨M, hM, h1, h2⟩

set_option maxHeartbeats 1000000 in
theorem SInv.shuf {env : Env} {s s' : State} {evs : List Ev} (h : SInv s) (hs : ShufStep env s evs s') (hc : s'.crashed = false) : SInv s' := by
  cases hs with
  | badIndex => simp [State.crash] at hc
  | start hj hM hw => exact h.stay hj hM rfl rfl rfl rfl rfl rfl hw Iff.rfl
  | @first j g n M hj hM ho =>
    have hmem := List.mem_of_getElem? hj
    obtain ⟨M', hM', hok⟩ := h.ok _ _ _ hmem
    rw [hM] at hM'; cases hM'
    have hmx := h.mix _ _ hM
    have hoth : ∀ g' qc, (g', n, qc) ∈ s.shufs → ¬ isBody qc ∧ (qc = .start ∨ qc = .enter) := by
      intro g' qc he
      obtain ⟨M', hM', hok'⟩ := h.ok _ _ _ he
      rw [hM] at hM'; cases hM'
      cases qc <;> simp_all [ShufOk, isBody]
    refine h.move (M' := { M with once := .running }) hj hM (fun _ => rfl) rfl rfl rfl rfl rfl ⟨rfl, hmx.fresh ho, rfl⟩ ?_
      (fun _ => .inr fun g' qc he => (hoth g' qc he).1) (fun _ => .inl trivial) ⟨by simp, fun _ => hok, by simp, hmx.sw⟩
      (fun qc => by cases qc <;> exact id) (by simp [ho]) rfl
    intro g' qc he _ hk
    rcases (hoth g' qc he).2 with rfl | rfl <;> exact hk
  | later hj hM ho => exact h.stay hj hM rfl rfl rfl rfl rfl rfl ho Iff.rfl
  | @copy j g n orig x M hj hM hx =>
    obtain ⟨M', hM', h1, h2, h3⟩ := h.ok _ _ _ (List.mem_of_getElem? hj)
    rw [hM] at hM'; cases hM'
    refine h.stay hj hM rfl rfl rfl rfl rfl rfl ⟨h1, h2, ?_⟩ Iff.rfl
    rw [List.length_append, List.length_singleton, List.take_add_one, hx, ← h3]; rfl
  | @draw j g n orig M p words rest hj hM hl hp =>
    obtain ⟨M', hM', h1, h2, h3⟩ := h.ok _ _ _ (List.mem_of_getElem? hj)
    rw [hM] at hM'; cases hM'
    refine h.stay hj hM rfl rfl rfl rfl rfl rfl ⟨h1, h2, hl, Nat.zero_le _, ⟨_, hp⟩, fun j => ?_⟩ Iff.rfl
    rw [hl, List.take_length] at h3
    rw [if_neg (by omega), h3]
  | @put j g n orig p words i k x M hj hM hi hk hx =>
    have hmem := List.mem_of_getElem? hj
    obtain ⟨M', hM', h1, h2, h3, h4, h5, h6⟩ := h.ok _ _ _ hmem
    rw [hM] at hM'; cases hM'
    have hmx := h.mix _ _ hM
    refine h.move (M' := { M with outputs := M.outputs.set i x }) hj hM (fun _ => rfl) rfl rfl rfl rfl rfl
      ⟨h1, h2, by simp [h3], by omega, h5, ?_⟩ ?_ (fun _ => .inl trivial) (fun _ => .inl trivial) ⟨hmx.fresh, hmx.wg, hmx.done, hmx.sw⟩
      (fun qc => by cases qc <;> exact id) id rfl
    · intro l
      dsimp only
      rw [List.getElem?_set]
      split
      · next e =>
        subst e
        rw [if_pos (Nat.lt_succ_self _), hk]
        simp [hx]
      · next e =>
        rw [h6 l]
        by_cases hl : l < i
        · rw [if_pos hl, if_pos (by omega)]
        · rw [if_neg hl, if_neg (by omega)]
    · intro g' qc he hne hk'
      cases qc with
      | copy o => exact absurd (h.body _ _ _ _ _ he hmem trivial trivial) hne
      | put o p w i => exact absurd (h.body _ _ _ _ _ he hmem trivial trivial) hne
      | _ => exact hk'
  | @signal j g n orig p words i M hj hM hi =>
    have hmem := List.mem_of_getElem? hj
    obtain ⟨M', hM', h1, h2, h3, h4, h5, h6⟩ := h.ok _ _ _ hmem
    rw [hM] at hM'; cases hM'
    have hmx := h.mix _ _ hM
    refine h.move (M' := { M with shuffleWait := M.shuffleWait - 1 }) hj hM (fun _ => rfl) rfl rfl rfl rfl rfl
      ⟨h1, by simp [h2]⟩ ?_ (fun _ => .inl trivial) (fun _ => .inl trivial) ⟨by simp [h1], hmx.wg, by simp [h1], .inl (by simp [h2])⟩
      (fun qc => by cases qc <;> simp [GetOk, h2]) id rfl
    intro g' qc he hne hk'
    cases qc with
    | copy o => exact absurd (h.body _ _ _ _ _ he hmem trivial trivial) hne
    | put o p w i => exact absurd (h.body _ _ _ _ _ he hmem trivial trivial) hne
    | leave => exact absurd (h.body _ _ _ _ _ he hmem trivial trivial) hne
    | _ => exact hk'
  | @leave j g n M hj hM =>
    have hmem := List.mem_of_getElem? hj
    obtain ⟨M', hM', h1, h2⟩ := h.ok _ _ _ hmem
    rw [hM] at hM'; cases hM'
    have hmx := h.mix _ _ hM
    refine h.move (M' := { M with once := .done }) hj hM (fun _ => rfl) rfl rfl rfl rfl rfl
      (show (OnceSt.done) = .done from rfl) ?_ (fun hb => by cases hb) (fun hr => by cases hr) ⟨by simp, fun _ => hmx.wg (by simp [h1]), fun _ => h2, .inl h2⟩
      (fun qc => by cases qc <;> exact id) (fun _ => rfl) rfl
    intro g' qc he hne hk'
    cases qc with
    | copy o => exact absurd (h.body _ _ _ _ _ he hmem trivial trivial) hne
    | put o p w i => exact absurd (h.body _ _ _ _ _ he hmem trivial trivial) hne
    | leave => exact absurd (h.body _ _ _ _ _ he hmem trivial trivial) hne
    | start => trivial
    | enter => exact hk'
    | after => rfl
    | wait => exact ⟨rfl, hk'.2⟩
    | send => exact ⟨rfl, hk'.2⟩
  | last hj hM hl => exact h.erase hj hM rfl rfl rfl rfl (fun hb => by cases hb) (fun n' hn => .inl hn)
  | @waited j g n M hj hM hl hw =>
    obtain ⟨M', hM', h1⟩ := h.ok _ _ _ (List.mem_of_getElem? hj)
    rw [hM] at hM'; cases hM'
    exact h.stay hj hM rfl rfl rfl rfl rfl rfl ⟨h1, hl⟩ Iff.rfl
  | outputs hj hM hw =>
    obtain ⟨M', hM', h1⟩ := h.ok _ _ _ (List.mem_of_getElem? hj)
    rw [hM] at hM'; cases hM'
    exact h.stay hj hM rfl rfl rfl rfl rfl rfl h1 Iff.rfl
  | @send j g n hj hcap =>
    obtain ⟨M, hM, h1⟩ := h.ok _ _ _ (List.mem_of_getElem? hj)
    refine h.erase hj hM rfl rfl rfl rfl (fun hb => by cases hb) (fun n' hn => ?_)
    simp only [List.mem_append, List.mem_singleton] at hn ⊢
    rcases hn with hn | hn | rfl
    · exact .inl (.inl hn)
    · exact .inl (.inr hn)
    · exact .inr ⟨rfl, h1⟩

theorem SInv.read {s s' : State} {evs : List Ev} (h : SInv s) (hs : ReadStep s evs s') (hc : s'.crashed = false) : SInv s' := by
  have hg : ∀ (k : Nat) (n : Str) (pc : GPc) (M : Mem), s.mixes n = some M → GetOk M pc →
      ∀ n' pc', (n', pc') ∈ s.getters.set k (n, pc) → ∃ M, s.mixes n' = some M ∧ GetOk M pc' := by
    intro k n pc M hM hk n' pc' he
    rcases List.mem_or_eq_of_mem_set he with he | he
    · exact h.get _ _ he
    · cases he; exact ⟨M, hM, hk⟩
  have hmx : ∀ t : State, t.shufs = s.shufs → ∀ n M, s.mixes n = some M → MixOk t n M := by
    intro t ht n M hM
    have := h.mix _ _ hM
    exact ⟨this.fresh, this.wg, this.done, by rw [ht]; exact this.running, this.sw⟩
  cases hs with
  | closed => simp [State.crash] at hc
  | @recv n q hq =>
    refine ⟨h.ids, h.lt, h.ok, h.body, hmx _ rfl, h.get, fun n' hn => h.out n' ?_⟩
    rw [hq]; simpa using hn
  | senderRead => exact h
  | @get n M hM =>
    refine ⟨h.ids, h.lt, h.ok, h.body, hmx _ rfl, ?_, h.out⟩
    intro n' pc' he
    rcases List.mem_append.1 he with he | he
    · exact h.get _ _ he
    · simp at he; obtain ⟨rfl, rfl⟩ := he; exact ⟨M, hM, trivial⟩
  | getWg hk hM hw => exact ⟨h.ids, h.lt, h.ok, h.body, hmx _ rfl, hg _ _ _ _ hM hw, h.out⟩
  | getShuffled hk hM hw => exact ⟨h.ids, h.lt, h.ok, h.body, hmx _ rfl, hg _ _ _ _ hM hw, h.out⟩
  | getRead => exact h
  | close => exact ⟨h.ids, h.lt, h.ok, h.body, hmx _ rfl, h.get, h.out⟩

theorem TInv.step {env : Env} {s s' : State} {evs : List Ev} (h : TInv s) (hs : Step env s evs s') (hc : s'.crashed = false) : TInv s' := by
  cases hs with
  | add hs => exact h.add hs hc
  | work hs => exact h.work hs hc
  | shuf hs => exact h.shuf hs hc
  | read hs => exact h.read hs hc

theorem SInv.step {env : Env} {s s' : State} {evs : List Ev} (h : SInv s) (ht : TInv s) (hs : Step env s evs s') (hc : s'.crashed = false) : SInv s' := by
  cases hs with
  | add hs => exact h.add ht hs hc
  | work hs => exact h.work ht hs hc
  | shuf hs => exact h.shuf hs hc
  | read hs => exact h.read hs hc

end Resmix.MixerFine
