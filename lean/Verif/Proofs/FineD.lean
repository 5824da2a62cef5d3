import Verif.Proofs.FineC
set_option autoImplicit false
/- The shuffling goroutines and the readers race with nobody (C122). -/
namespace Resmix.MixerFine
open Resmix.Mixer (Messages Task Env)
open Resmix.Race

/-- What a goroutine in shuffleAndSend must have seen. -/
def Need (tr : List Ev) (n : Str) (g : Nat) (M : Mem) : SPc → Prop
  | .start => True
  | .enter => M.once = .fresh → AllKn tr n (.shuf g)
  | .copy _ => AllKn tr n (.shuf g)
  | .put _ _ _ _ => AllKn tr n (.shuf g)
  | _ => WrKn tr n (.shuf g)

theorem KN.need {s : State} {tr : List Ev} {n : Str} (h : KN s tr n) {g : Nat} {pc : SPc} {M : Mem} (hM : s.mixes n = some M) (he : (g, n, pc) ∈ s.shufs) :
    Need tr n g M pc := by
  cases pc with
  | start => trivial
  | enter => exact fun hf => h.enter M g hM he hf
  | copy o => exact h.copy _ _ he
  | put o p w i => exact h.put _ _ _ _ _ he
  | leave => exact h.leave _ he
  | after => exact h.after _ he
  | wait => exact h.wait _ he
  | send => exact h.send _ he

/-- From the needs of all goroutines of the mix. -/
theorem KN.of_need {s : State} {tr : List Ev} {n : Str} {M : Mem} (hM : s.mixes n = some M)
    (fresh : M.once = .fresh → ∀ (i : Nat) e, tr[i]? = some e → Touch e n →
      ∃ k, (e.op = .read (.slot n k) ∨ e.op = .write (.slot n k)) ∧ M.totalWorkload ≤ (k : Int) ∧ (∀ t ∈ unwritten s, t.mix = n → t.idx ≠ (k : Int)) ∧
        ((∃ w t, (w, t, true) ∈ s.busy ∧ t.mix = n ∧ Known tr (.worker w) i) ∨ Rel tr (.wg n) i))
    (need : ∀ g pc, (g, n, pc) ∈ s.shufs → Need tr n g M pc)
    (sw : M.shuffleWait = 0 → WrRel tr n (.shuffled n)) (done : M.once = .done → WrRel tr n (.once n))
    (out : ∀ (k : Nat), s.output[k]? = some n → WrRel tr n (.out (s.received.length + k))) (recv : n ∈ s.received → WrKn tr n .sender)
    (get : ∀ (k : Nat), s.getters[k]? = some (n, .reading) → WrKn tr n (.getter k)) : KN s tr n where
  fresh := fun N hN => by rw [hM] at hN; cases hN; exact fresh
  enter := fun N g hN he => by rw [hM] at hN; cases hN; exact need _ _ he
  copy := fun g o he => need _ _ he
  put := fun g o p w i he => need _ _ he
  leave := fun g he => need _ _ he
  after := fun g he => need _ _ he
  wait := fun g he => need _ _ he
  send := fun g he => need _ _ he
  sw := fun N hN => by rw [hM] at hN; cases hN; exact sw
  done := fun N hN => by rw [hM] at hN; cases hN; exact done
  out := out
  recv := recv
  get := get

/-- The goroutine `g` moves on without touching the mix. -/
theorem KN.move {s s' : State} {tr : List Ev} {n : Str} (h : KN s tr n) (hsi : SInv s) {j g : Nat} {pc pc' : SPc} {M M' : Mem}
    (hj : s.shufs[j]? = some (g, n, pc)) (hM : s.mixes n = some M) (hM' : s'.mixes n = some M') (hsh : s'.shufs = s.shufs.set j (g, n, pc'))
    (hu : unwritten s' = unwritten s) (hb : s'.busy = s.busy) (ho : s'.output = s.output) (hr : s'.received = s.received) (hg : s'.getters = s.getters)
    (hf : M'.once = .fresh → M.once = .fresh) (htw : M'.totalWorkload = M.totalWorkload)
    (hneed : Need tr n g M' pc')
    (hsw : M'.shuffleWait = 0 → M.shuffleWait = 0 ∨ WrRel tr n (.shuffled n)) (hdone : M'.once = .done → M.once = .done ∨ WrRel tr n (.once n)) : KN s' tr n := by
  refine KN.of_need hM' ?_ ?_ ?_ ?_ ?_ ?_ ?_
  · intro hfr
    rw [hu, hb, htw]; exact h.fresh M hM (hf hfr)
  · intro g' qc he
    rw [hsh] at he
    rcases (mem_set_ids hsi.ids hj).1 he with e | ⟨he, -⟩
    · cases e; exact hneed
    · have := h.need hM he
      revert this
      cases qc with
      | enter => exact fun h1 h2 => h1 (hf h2)
      | _ => exact id
  · intro h0; exact (hsw h0).elim (h.sw M hM) id
  · intro h0; exact (hdone h0).elim (h.done M hM) id
  · rw [ho, hr]; exact h.out
  · rw [hr]; exact h.recv
  · rw [hg]; exact h.get

/-- In ShuffleOnions: nobody else looks at the mix. -/
theorem KN.in_body {s' : State} {tr : List Ev} {n : Str} (hsi : SInv s') {g : Nat} {pc : SPc} {M : Mem} (hM : s'.mixes n = some M)
    (hmem : (g, n, pc) ∈ s'.shufs) (hpc : (∃ o, pc = .copy o) ∨ ∃ o p w i, pc = .put o p w i) (hk : AllKn tr n (.shuf g)) : KN s' tr n := by
  obtain ⟨N, hN, hok⟩ := hsi.ok _ _ _ hmem
  rw [hM] at hN; cases hN
  have hb : isBody pc := by rcases hpc with ⟨o, rfl⟩ | ⟨o, p, w, i, rfl⟩ <;> trivial
  have hrun : M.once = .running ∧ M.shuffleWait = 1 := by rcases hpc with ⟨o, rfl⟩ | ⟨o, p, w, i, rfl⟩ <;> exact ⟨hok.1, hok.2.1⟩
  have hout : ¬ n ∈ s'.received ++ s'.output := by
    intro hm
    obtain ⟨N, hN, hd, -⟩ := hsi.out _ hm
    rw [hM] at hN; cases hN
    rw [hrun.1] at hd; cases hd
  refine KN.of_need hM ?_ ?_ ?_ ?_ ?_ ?_ ?_
  · intro hf; rw [hrun.1] at hf; cases hf
  · intro g' qc he
    by_cases hq : isBody qc
    · have e := hsi.body _ _ _ _ _ he hmem hq hb
      subst e
      have := ids_unique hsi.ids he hmem rfl
      cases this
      rcases hpc with ⟨o, rfl⟩ | ⟨o, p, w, i, rfl⟩ <;> exact hk
    · obtain ⟨N, hN, hok'⟩ := hsi.ok _ _ _ he
      rw [hM] at hN; cases hN
      cases qc <;> simp_all [ShufOk, Need, isBody]
  · intro h0; omega
  · intro h0; rw [hrun.1] at h0; cases h0
  · intro k hk'; exact absurd (List.mem_append_right _ (List.mem_of_getElem? hk')) hout
  · intro hr; exact absurd (List.mem_append_left _ hr) hout
  · intro k hk'
    obtain ⟨N, hN, hg⟩ := hsi.get _ _ (List.mem_of_getElem? hk')
    rw [hM] at hN; cases hN
    have : M.shuffleWait = 0 := hg
    omega

/-- Reading the shuffled outputs. -/
theorem KN.reading {s : State} {tr : List Ev} {n : Str} (h : KN s tr n) (hsi : SInv s) {M : Mem} (hM : s.mixes n = some M) (hsw : M.shuffleWait = 0) {evs : List Ev}
    (hn : ∀ e ∈ evs, ¬ Put e n) : KN s (tr ++ evs) n := by
  have hf : M.once ≠ .fresh := fun hf => by have := (hsi.mix _ _ hM).fresh hf; omega
  refine KN.of_need hM (fun h0 => absurd h0 hf) ?_ (fun h0 => (h.sw M hM h0).mono hn) (fun h0 => (h.done M hM h0).mono hn)
    (fun k hk => (h.out k hk).mono hn) (fun hr => (h.recv hr).mono hn) (fun k hk => (h.get k hk).mono hn)
  intro g qc he
  obtain ⟨N, hN, hok⟩ := hsi.ok _ _ _ he
  rw [hM] at hN; cases hN
  have := h.need hM he
  revert this
  cases qc with
  | start => exact id
  | enter => exact fun _ h0 => absurd h0 hf
  | copy o => have := hok.2.1; omega
  | put o p w i => have := hok.2.1; omega
  | leave => exact fun h1 => WrKn.mono h1 hn
  | after => exact fun h1 => WrKn.mono h1 hn
  | wait => exact fun h1 => WrKn.mono h1 hn
  | send => exact fun h1 => WrKn.mono h1 hn

theorem touch_of_conflict {e a : Ev} {l : Loc} {n : Str} (hl : On n l) (he : e.op = .read l ∨ e.op = .write l) (hc : Conflict a e) : Touch a n := by
  obtain ⟨l', hc⟩ := hc
  have : l' = l := by
    rcases hc with ⟨-, h | h⟩ | ⟨-, h⟩ <;> rcases he with he | he <;> rw [he] at h <;> cases h <;> rfl
  subst this
  rcases hc with ⟨h, -⟩ | ⟨h, -⟩
  · exact ⟨l', hl, .inr h⟩
  · exact ⟨l', hl, .inl h⟩

theorem put_of_conflict {e a : Ev} {l : Loc} {n : Str} (hl : On n l) (he : e.op = .read l) (hc : Conflict a e) : Put a n := by
  obtain ⟨l', hc⟩ := hc
  rcases hc with ⟨h, h' | h'⟩ | ⟨-, h'⟩
  · rw [he] at h'; cases h'; exact ⟨l, hl, h⟩
  · rw [he] at h'; cases h'
  · rw [he] at h'; cases h'

theorem touch_one {e : Ev} {l : Loc} {n n' : Str} (hl : On n l) (he : e.op = .read l ∨ e.op = .write l) (ht : Touch e n') : n' = n := by
  obtain ⟨l', hl', h⟩ := ht
  have : l' = l := by rcases he with he | he <;> rcases h with h | h <;> rw [he] at h <;> cases h <;> rfl
  subst this
  cases l' <;> simp_all [On]

/-- The rest of a step of a shuffling goroutine. -/
theorem KInv.shufStep {s s' : State} {tr evs : List Ev} (h : KInv s tr) {n : Str} {M' : Mem}
    (hm : ∀ n', s'.mixes n' = if n' = n then some M' else s.mixes n')
    (hh : s'.holder = s.holder) (hq : s'.queue = s.queue) (hb : s'.busy = s.busy) (hr : s'.received = s.received) (hg : s'.getters = s.getters)
    (hsh : ∀ e ∈ s'.shufs, e ∈ s.shufs ∨ e.2.1 = n)
    (ho : ∀ (k : Nat) (x : Str), s'.output[k]? = some x → x ≠ n → s.output[k]? = some x)
    (hev : ∀ e ∈ evs, (∃ y, e.op = .release y) ∨ (∃ y, e.op = .acquire y) ∨ ∃ l, On n l ∧ (e.op = .read l ∨ e.op = .write l))
    (hrf : RaceFree (tr ++ evs)) (hk : KN s' (tr ++ evs) n) : KInv s' (tr ++ evs) := by
  refine h.unguarded hh ?_ hrf fun n' => ?_
  · intro e he l hl
    rcases hev e he with ⟨y, h1⟩ | ⟨y, h1⟩ | ⟨l', hl', h1⟩
    · rw [h1]; simp
    · rw [h1]; simp
    · have : l ≠ l' := by
        rintro rfl
        cases l <;> simp_all [Guarded, On]
      rcases h1 with h1 | h1 <;> rw [h1] <;> simp [Ne.symm this]
  · by_cases hn : n' = n
    · subst hn; exact hk
    · refine ((h.kn n').mono ?_).weak ?_ ?_ ?_ ?_ ?_ ?_ ?_
      · intro e he ht
        rcases hev e he with ⟨y, h1⟩ | ⟨y, h1⟩ | ⟨l', hl', h1⟩
        · obtain ⟨l, -, h2 | h2⟩ := ht <;> rw [h1] at h2 <;> cases h2
        · obtain ⟨l, -, h2 | h2⟩ := ht <;> rw [h1] at h2 <;> cases h2
        · exact hn (touch_one hl' h1 ht)
      · intro N hN; rw [hm, if_neg hn] at hN; exact ⟨N, hN, rfl, rfl, Int.le_refl _⟩
      · intro u hu _
        simp only [unwritten, hTasks, hh, hq, hb] at hu ⊢
        exact .inl hu
      · intro w t ht _; rw [hb]; exact ht
      · intro g pc he
        rcases hsh _ he with he | he
        · exact .inl he
        · exact absurd he hn
      · intro k hk; exact ⟨by rw [hr], ho k n' hk hn⟩
      · rw [hr]; exact id
      · rw [hg]; exact fun _ => id

theorem set_sub {l : List (Nat × Str × SPc)} {j g : Nat} {n : Str} {pc : SPc} : ∀ e ∈ l.set j (g, n, pc), e ∈ l ∨ e.2.1 = n := by
  intro e he
  rcases List.mem_or_eq_of_mem_set he with he | rfl
  · exact .inl he
  · exact .inr rfl

theorem mem_set_self {l : List (Nat × Str × SPc)} {j : Nat} {a b : Nat × Str × SPc} (hj : l[j]? = some a) : b ∈ l.set j b := by
  have := (List.getElem?_eq_some_iff.1 hj).1
  exact List.mem_iff_getElem?.2 ⟨j, by simp [this]⟩

set_option maxHeartbeats 1000000 in
theorem KInv.shuf {env : Env} {s s' : State} {tr evs : List Ev} (h : KInv s tr) (ht : TInv s) (hsi : SInv s) (hs : ShufStep env s evs s') (hc : s'.crashed = false) :
    KInv s' (tr ++ evs) := by
  have hsi' := hsi.shuf hs hc
  cases hs with
  | badIndex => simp [State.crash] at hc
  | @start j g n M hj hM hw =>
    have hnt : ∀ e ∈ [(⟨.shuf g, .acquire (.spawn g)⟩ : Ev), ⟨.shuf g, .acquire (.wg n)⟩], ¬ Touch e n := by
      intro e he; simp at he; rcases he with rfl | rfl <;> exact touch_sync_acq
    refine h.shufStep (M' := M) (same_mixes hM) rfl rfl rfl rfl rfl set_sub (fun k x hk _ => hk) (by simp) ?_ ?_
    · rw [show tr ++ [(⟨.shuf g, .acquire (.spawn g)⟩ : Ev), ⟨.shuf g, .acquire (.wg n)⟩] = (tr ++ [⟨.shuf g, .acquire (.spawn g)⟩]) ++ [⟨.shuf g, .acquire (.wg n)⟩] by simp]
      exact (h.rf.snoc_sync (.inr ⟨_, rfl⟩)).snoc_sync (.inr ⟨_, rfl⟩)
    · refine ((h.kn n).mono hnt).move hsi hj hM (M' := M) hM rfl rfl rfl rfl rfl rfl id rfl ?_ .inl .inl
      intro hf i a ha hta
      rcases get_app ha with ha' | ha'
      · obtain ⟨k, h1, h2, h3, h4⟩ := (h.kn n).fresh M hM hf i a ha' hta
        rcases h4 with ⟨w, t, a1, rfl, c1⟩ | h4
        · have h0 := ht.bval w t a1
          obtain ⟨i', hi'⟩ := List.mem_iff_getElem?.1 a1
          have := ht.wg_pos (busy_mem hi') hM h0
          omega
        · rw [show tr ++ [(⟨.shuf g, .acquire (.spawn g)⟩ : Ev), ⟨.shuf g, .acquire (.wg n)⟩] = (tr ++ [⟨.shuf g, .acquire (.spawn g)⟩]) ++ [⟨.shuf g, .acquire (.wg n)⟩] by simp]
          exact (h4.mono _).acquire rfl
      · exact absurd hta (hnt a ha')
  | @first j g n M hj hM ho =>
    have hmem := List.mem_of_getElem? hj
    rw [List.append_nil]
    have := h.shufStep (evs := []) (s' := { s.set n { M with once := .running } with shufs := s.shufs.set j (g, n, .copy []) }) (fun _ => rfl) rfl rfl rfl rfl rfl set_sub
      (fun k x hk _ => hk) (by simp) (by rw [List.append_nil]; exact h.rf) ?_
    · rwa [List.append_nil] at this
    · rw [List.append_nil]
      refine KN.in_body hsi' (if_pos rfl) (mem_set_self hj) (.inl ⟨_, rfl⟩) ?_
      exact (h.kn n).enter M g hM hmem ho
  | @later j g n M hj hM ho =>
    refine h.shufStep (M' := M) (same_mixes hM) rfl rfl rfl rfl rfl set_sub (fun k x hk _ => hk) (by simp) (h.rf.snoc_sync (.inr ⟨_, rfl⟩)) ?_
    refine ((h.kn n).mono (by simp [touch_sync_acq])).move hsi hj hM (M' := M) hM rfl rfl rfl rfl rfl rfl id rfl ?_ .inl .inl
    exact ((h.kn n).done M hM ho).acquire
  | @copy j g n orig x M hj hM hx =>
    have hmem := List.mem_of_getElem? hj
    have hk := (h.kn n).copy _ _ hmem
    refine h.shufStep (M' := M) (same_mixes hM) rfl rfl rfl rfl rfl set_sub (fun k x hk _ => hk) ?_ ?_ ?_
    · intro e he; simp at he; subst he; exact .inr (.inr ⟨.slot n orig.length, (show n = n from rfl), .inl rfl⟩)
    · refine h.rf.snoc fun i a ha hcf => hk i a ha (touch_of_conflict (l := .slot n orig.length) (show n = n from rfl) (.inl rfl) hcf)
    · exact KN.in_body hsi' hM (mem_set_self hj) (.inl ⟨_, rfl⟩) (hk.own rfl)
  | @draw j g n orig M p words rest hj hM hl hp =>
    have hmem := List.mem_of_getElem? hj
    have hk := (h.kn n).copy _ _ hmem
    refine h.shufStep (M' := M) (same_mixes hM) rfl rfl rfl rfl rfl set_sub (fun k x hk _ => hk) ?_ ?_ ?_
    · intro e he; simp at he; subst he; exact .inr (.inr ⟨.shuffler n, (show n = n from rfl), .inr rfl⟩)
    · refine h.rf.snoc fun i a ha hcf => hk i a ha (touch_of_conflict (l := .shuffler n) (show n = n from rfl) (.inr rfl) hcf)
    · exact KN.in_body hsi' hM (mem_set_self hj) (.inr ⟨_, _, _, _, rfl⟩) (hk.own rfl)
  | @put j g n orig p words i k x M hj hM hi hk' hx =>
    have hmem := List.mem_of_getElem? hj
    have hk := (h.kn n).put _ _ _ _ _ hmem
    refine h.shufStep (M' := { M with outputs := M.outputs.set i x }) (fun _ => rfl) rfl rfl rfl rfl rfl set_sub (fun k x hk _ => hk) ?_ ?_ ?_
    · intro e he; simp at he; subst he; exact .inr (.inr ⟨.slot n i, (show n = n from rfl), .inr rfl⟩)
    · refine h.rf.snoc fun i' a ha hcf => hk i' a ha (touch_of_conflict (l := .slot n i) (show n = n from rfl) (.inr rfl) hcf)
    · exact KN.in_body hsi' (if_pos rfl) (mem_set_self hj) (.inr ⟨_, _, _, _, rfl⟩) (hk.own rfl)
  | @signal j g n orig p words i M hj hM hi =>
    have hmem := List.mem_of_getElem? hj
    have hk := (h.kn n).put _ _ _ _ _ hmem
    refine h.shufStep (M' := { M with shuffleWait := M.shuffleWait - 1 }) (fun _ => rfl) rfl rfl rfl rfl rfl set_sub (fun k x hk _ => hk) (by simp)
      (h.rf.snoc_sync (.inl ⟨_, rfl⟩)) ?_
    refine ((h.kn n).mono (by simp [touch_sync_rel])).move hsi hj hM (M' := { M with shuffleWait := M.shuffleWait - 1 }) (if_pos rfl) rfl rfl rfl rfl rfl rfl id rfl ?_
      (fun _ => .inr hk.wr.release) .inl
    exact hk.wr.mono (by simp; exact fun hp => touch_sync_rel hp.touch)
  | @leave j g n M hj hM =>
    have hmem := List.mem_of_getElem? hj
    have hk := (h.kn n).leave _ hmem
    refine h.shufStep (M' := { M with once := .done }) (fun _ => rfl) rfl rfl rfl rfl rfl set_sub (fun k x hk _ => hk) (by simp)
      (h.rf.snoc_sync (.inl ⟨_, rfl⟩)) ?_
    refine ((h.kn n).mono (by simp [touch_sync_rel])).move hsi hj hM (M' := { M with once := .done }) (if_pos rfl) rfl rfl rfl rfl rfl rfl (fun h0 => by cases h0) rfl ?_
      .inl (fun _ => .inr hk.release)
    exact hk.mono (by simp; exact fun hp => touch_sync_rel hp.touch)
  | @last j g n M hj hM hl =>
    have hmi : ∀ e ∈ s.shufs.eraseIdx j, e ∈ s.shufs := fun e he => List.mem_of_mem_eraseIdx he
    refine h.shufStep (evs := []) (M' := M) (same_mixes hM) rfl rfl rfl rfl rfl (fun e he => .inl (hmi e he)) (fun k x hk _ => hk) (by simp)
      (by rw [List.append_nil]; exact h.rf) ?_
    rw [List.append_nil]
    exact (h.kn n).weak (same_mem rfl n) (fun u hu _ => .inl hu) (fun w t h1 _ => h1) (fun g pc he => .inl (hmi _ he)) (fun k hk => ⟨rfl, hk⟩) id (fun _ => id)
  | @waited j g n M hj hM hl hw =>
    have hmem := List.mem_of_getElem? hj
    have hmo := (h.kn n).mono (evs := [⟨.shuf g, .acquire (.wg n)⟩]) (by simp [touch_sync_acq])
    refine h.shufStep (M' := M) (same_mixes hM) rfl rfl rfl rfl rfl set_sub (fun k x hk _ => hk) (by simp) (h.rf.snoc_sync (.inr ⟨_, rfl⟩)) ?_
    exact hmo.move hsi hj hM (M' := M) hM rfl rfl rfl rfl rfl rfl id rfl (hmo.after _ hmem) .inl .inl
  | @outputs j g n M hj hM hw =>
    have hmem := List.mem_of_getElem? hj
    have hmo := (h.kn n).mono (evs := [⟨.shuf g, .acquire (.shuffled n)⟩]) (by simp [touch_sync_acq])
    refine h.shufStep (M' := M) (same_mixes hM) rfl rfl rfl rfl rfl set_sub (fun k x hk _ => hk) (by simp) (h.rf.snoc_sync (.inr ⟨_, rfl⟩)) ?_
    exact hmo.move hsi hj hM (M' := M) hM rfl rfl rfl rfl rfl rfl id rfl (hmo.wait _ hmem) .inl .inl
  | @send j g n hj hcap =>
    have hmem := List.mem_of_getElem? hj
    obtain ⟨M, hM, -⟩ := hsi.ok _ _ _ hmem
    have hmi : ∀ e ∈ s.shufs.eraseIdx j, e ∈ s.shufs := fun e he => List.mem_of_mem_eraseIdx he
    have hmo := (h.kn n).mono (evs := [⟨.shuf g, .release (.out (s.received.length + s.output.length))⟩]) (by simp [touch_sync_rel])
    refine h.shufStep (M' := M) (same_mixes hM) rfl rfl rfl rfl rfl (fun e he => .inl (hmi e he)) ?_ (by simp) (h.rf.snoc_sync (.inl ⟨_, rfl⟩)) ?_
    · intro k x hk hne
      dsimp only at hk
      by_cases hk' : k < s.output.length
      · rwa [List.getElem?_append_left hk'] at hk
      · rw [List.getElem?_append_right (by omega)] at hk
        have := List.mem_of_getElem? hk
        simp at this; exact absurd this hne
    · refine { hmo with fresh := hmo.fresh, enter := ?_, copy := ?_, put := ?_, leave := ?_, after := ?_, wait := ?_, send := ?_, out := ?_ }
      · intro N g' hN he hf; exact hmo.enter N g' hN (hmi _ he) hf
      · intro g' o he; exact hmo.copy _ _ (hmi _ he)
      · intro g' o p w i he; exact hmo.put _ _ _ _ _ (hmi _ he)
      · intro g' he; exact hmo.leave _ (hmi _ he)
      · intro g' he; exact hmo.after _ (hmi _ he)
      · intro g' he; exact hmo.wait _ (hmi _ he)
      · intro g' he; exact hmo.send _ (hmi _ he)
      · intro k hk
        dsimp only at hk ⊢
        by_cases hk' : k < s.output.length
        · rw [List.getElem?_append_left hk'] at hk
          exact hmo.out k hk
        · have hkl := (List.getElem?_eq_some_iff.1 hk).1
          simp at hkl
          have : k = s.output.length := by omega
          subst this
          exact ((h.kn n).send _ hmem).release

set_option maxHeartbeats 1000000 in
theorem KInv.read {s s' : State} {tr evs : List Ev} (h : KInv s tr) (hsi : SInv s) (hs : ReadStep s evs s') (hc : s'.crashed = false) : KInv s' (tr ++ evs) := by
  cases hs with
  | closed => simp [State.crash] at hc
  | @recv n q hq =>
    refine h.unguarded rfl (by simp) (h.rf.snoc_sync (.inr ⟨_, rfl⟩)) fun n' => ?_
    have hmo := (h.kn n').mono (evs := [⟨.sender, .acquire (.out s.received.length)⟩]) (by simp [touch_sync_acq])
    refine { hmo with fresh := hmo.fresh, out := ?_, recv := ?_ }
    · intro k hk
      dsimp only at hk
      have := hmo.out (k + 1) (by rw [hq]; simpa using hk)
      rw [List.length_append, List.length_singleton, show s.received.length + 1 + k = s.received.length + (k + 1) by omega]
      exact this
    · intro hm
      rcases List.mem_append.1 hm with hm | hm
      · exact hmo.recv hm
      · simp at hm; subst hm
        have := (h.kn n').out 0 (by rw [hq]; rfl)
        exact WrRel.acquire this
  | @senderRead n M i hn hM hi =>
    have hd : M.shuffleWait = 0 := by
      obtain ⟨N, hN, ho, -⟩ := hsi.out _ (List.mem_append_left _ hn)
      rw [hM] at hN; cases hN
      exact (hsi.mix _ _ hM).done ho
    refine h.unguarded rfl ?_ ?_ fun n' => ?_
    · intro e he l hl; simp at he; subst he
      refine ⟨?_, by simp⟩
      rintro h1; cases h1; cases hl
    · refine h.rf.snoc fun j a ha hcf => (h.kn n).recv hn j a ha (put_of_conflict (l := .slot n i) (show n = n from rfl) rfl hcf)
    · by_cases e : n' = n
      · subst e
        refine (h.kn n').reading hsi hM hd ?_
        intro e he; simp at he; subst he
        rintro ⟨l, -, h1⟩; cases h1
      · refine (h.kn n').mono ?_
        intro e' he ht; simp at he; subst he
        exact e (touch_one (l := .slot n i) (show n = n from rfl) (.inl rfl) ht)
  | @get n M hM =>
    refine h.unguarded (evs := []) rfl (by simp) (by rw [List.append_nil]; exact h.rf) fun n' => ?_
    rw [List.append_nil]
    refine (h.kn n').weak (same_mem rfl n') (fun u hu _ => .inl hu) (fun w t h1 _ => h1) (fun g pc he => .inl he) (fun k hk => ⟨rfl, hk⟩) id ?_
    intro k hk
    dsimp only at hk
    by_cases hk' : k < s.getters.length
    · rwa [List.getElem?_append_left hk'] at hk
    · rw [List.getElem?_append_right (by omega)] at hk
      have := List.mem_of_getElem? hk
      simp at this
  | @getWg k n M hk hM hw =>
    refine h.unguarded rfl (by simp) (h.rf.snoc_sync (.inr ⟨_, rfl⟩)) fun n' => ?_
    refine ((h.kn n').mono (by simp [touch_sync_acq])).weak (same_mem rfl n') (fun u hu _ => .inl hu) (fun w t h1 _ => h1) (fun g pc he => .inl he)
      (fun k hk => ⟨rfl, hk⟩) id ?_
    intro k' hk'
    dsimp only at hk'
    rw [List.getElem?_set] at hk'
    split at hk'
    · split at hk' <;> cases hk'
    · exact hk'
  | @getShuffled k n M hk hM hw =>
    refine h.unguarded rfl (by simp) (h.rf.snoc_sync (.inr ⟨_, rfl⟩)) fun n' => ?_
    have hmo := (h.kn n').mono (evs := [⟨.getter k, .acquire (.shuffled n)⟩]) (by simp [touch_sync_acq])
    refine { hmo with fresh := hmo.fresh, get := ?_ }
    intro k' hk'
    dsimp only at hk'
    rw [List.getElem?_set] at hk'
    split at hk'
    · next e =>
      subst e
      split at hk' <;> cases hk'
      exact ((h.kn n).sw M hM hw).acquire
    · exact hmo.get k' hk'
  | @getRead k n M i hk hM hi =>
    have hd : M.shuffleWait = 0 := by
      obtain ⟨N, hN, ho⟩ := hsi.get _ _ (List.mem_of_getElem? hk)
      rw [hM] at hN; cases hN; exact ho
    refine h.unguarded rfl ?_ ?_ fun n' => ?_
    · intro e he l hl; simp at he; subst he
      refine ⟨?_, by simp⟩
      rintro h1; cases h1; cases hl
    · refine h.rf.snoc fun j a ha hcf => (h.kn n).get k hk j a ha (put_of_conflict (l := .slot n i) (show n = n from rfl) rfl hcf)
    · by_cases e : n' = n
      · subst e
        refine (h.kn n').reading hsi hM hd ?_
        intro e he; simp at he; subst he
        rintro ⟨l, -, h1⟩; cases h1
      · refine (h.kn n').mono ?_
        intro e' he ht; simp at he; subst he
        exact e (touch_one (l := .slot n i) (show n = n from rfl) (.inl rfl) ht)
  | close hcl =>
    refine h.unguarded (evs := []) rfl (by simp) (by rw [List.append_nil]; exact h.rf) fun n' => ?_
    rw [List.append_nil]
    exact (h.kn n').weak (same_mem rfl n') (fun u hu _ => .inl hu) (fun w t h1 _ => h1) (fun g pc he => .inl he) (fun k hk => ⟨rfl, hk⟩) id (fun _ => id)

theorem KInv.step {env : Env} {s s' : State} {tr evs : List Ev} (h : KInv s tr) (ht : TInv s) (hsi : SInv s) (hs : Step env s evs s') (hc : s'.crashed = false) :
    KInv s' (tr ++ evs) := by
  cases hs with
  | add hs => exact h.add ht hs hc
  | work hs => exact h.work ht hsi hs hc
  | shuf hs => exact h.shuf ht hsi hs hc
  | read hs => exact h.read hsi hs hc

/-- A step that panics makes no access. -/
theorem step_crash {env : Env} {s s' : State} {evs : List Ev} (h0 : s.crashed = false) (hs : Step env s evs s') (hc : s'.crashed = true) : evs = [] ∧ s' = s.crash := by
  cases hs with
  | add hs => cases hs <;> first | exact ⟨rfl, rfl⟩ | (simp_all)
  | work hs => cases hs <;> first | exact ⟨rfl, rfl⟩ | (simp_all)
  | shuf hs => cases hs <;> first | exact ⟨rfl, rfl⟩ | (simp_all)
  | read hs => cases hs <;> first | exact ⟨rfl, rfl⟩ | (simp_all)

/-- All invariants of executions from a state. -/
theorem exec_inv {env : Env} {s0 s : State} {tr : List Ev} (hx : Exec env s0 tr s) (h0 : s0.crashed = false) (ht : TInv s0) (hs : SInv s0) (hk : KInv s0 []) :
    RaceFree tr ∧ (s.crashed = false → TInv s ∧ SInv s ∧ KInv s tr) := by
  induction hx with
  | nil => exact ⟨.nil, fun _ => ⟨ht, hs, hk⟩⟩
  | @snoc tr evs s s' hx hcr hst ih =>
    obtain ⟨i1, i2⟩ := ih
    obtain ⟨a, b, c⟩ := i2 hcr
    cases hc : s'.crashed with
    | true =>
      obtain ⟨rfl, rfl⟩ := step_crash hcr hst hc
      rw [List.append_nil]
      exact ⟨i1, fun h => by simp at h⟩
    | false =>
      have hk' := c.step a b hst hc
      exact ⟨hk'.rf, fun _ => ⟨a.step hst hc, b.step a hst hc, hk'⟩⟩

end Resmix.MixerFine
