import Verif.Proofs.CallE
set_option autoImplicit false
/-
What one step does to responses.
-/
namespace Resmix.Rrpc.CallSystem
open Resmix.Ecc
variable {μ : Type} {K m n : Nat} {cfg : Config μ K m n} {s s' : State μ K m n} {e : Event μ K m n}

/-- Whether a goroutine's handler has returned, all of them. -/
def sameDone (s s' : State μ K m n) : Prop := ∀ k r, done (s'.jobs k r) = done (s.jobs k r)

inductive EffA (cfg : Config μ K m n) (s s' : State μ K m n) : Prop
  | same (ha : s'.answers = s.answers) (hd : sameDone s s')
  | finish (k : Fin K) (r : Fin n) (t : CTask μ) (h : Behaviour μ) (resps : Fin n → CallStreamResponse) (hp : h.Proper)
      (ho : TaskOutput cfg.S cfg.H cfg.cod (cfg.key (cfg.calls k).server) cfg.C false cfg.net h [] t (.ok (List.ofFn resps)))
      (hj : s.jobs k r = some ⟨t, none⟩) (hj' : s'.jobs = set2 s.jobs k r (some ⟨t, some h⟩))
      (ha : s'.answers = Function.update s.answers (.proc k r) ((List.finRange n).map fun i => ⟨k, i, resps i⟩))
  | move (l l' : ALoc K m n) (a : Ans K n) (rest : List (Ans K n)) (hd : sameDone s s') (hl : s.answers l = a :: rest)
      (ha : s'.answers = move s.answers l l' a rest) (hpl : CallSystem.placeA cfg l' a) (hne : l ≠ l')
      (hr : CallSystem.routed l' = true → CallSystem.asked s a.call a.relay) (hg : got l = true → got l' = true)
      (hq : CallSystem.routed l = true → CallSystem.routed l' = true)

/-- The answer to a routed response is known to the client. -/
theorem Inv.known_live (h : Inv cfg s) (hh : Honest cfg) {r : Fin n} {c : Fin m} {a : Ans K n} (ha : a ∈ s.answers (.wireC r c)) :
    (s.live c r).lookup ((a.msg.note.map (·.calluuid)).getD []) = some a.call := by
  obtain ⟨x, hx, hu⟩ := h.note hh ha
  have hp := h.placeA _ _ ha
  have hask := h.routed _ _ ha rfl
  rw [hx]
  simp only [Option.map_some, Option.getD_some, hu]
  obtain ⟨rfl, rfl⟩ := hp
  rcases h.live _ _ hask with h1 | ⟨l, b, hb, hg, hc, hr⟩
  · exact h1
  · have := h.ans_one hh hb ha hc hr
    rw [this] at hg; cases hg

/-- A finished task can be answered. -/
theorem Inv.output (h : Inv cfg s) (hh : Honest cfg) {k : Fin K} {r : Fin n} {j : Job μ} (hj : s.jobs k r = some j) {b : Behaviour μ} (hb : b.Proper) :
    ∃ resps : Fin n → CallStreamResponse, ∀ res, TaskOutput cfg.S cfg.H cfg.cod (cfg.key (cfg.calls k).server) cfg.C false cfg.net b [] j.task res ↔ res = .ok (List.ofFn resps) := by
  obtain ⟨f, -⟩ := h.taskFacts hh k j.task (h.jobsMem _ _ _ hj)
  obtain ⟨rs, h1, h2, -⟩ := task_resps cfg.S cfg.H cfg.cod (cfg.key (cfg.calls k).server) cfg.net cfg.C hh.code (by rw [hh.servers]; exact hh.small) j.task
    (cfg.calls k).args f.args f.unsigned b hb
  have hn : rs.length = n := by rw [h2, hh.servers]
  subst hn
  exact ⟨rs.get, by rw [List.ofFn_get]; exact h1⟩

/-- There are no responses before the handler has returned. -/
theorem Inv.no_answers (h : Inv cfg s) (hh : Honest cfg) {k : Fin K} {r : Fin n} {t : CTask μ} (hj : s.jobs k r = some ⟨t, none⟩) {l : ALoc K m n} {a : Ans K n}
    (ha : a ∈ s.answers l) : a.call ≠ k := by
  rintro rfl
  obtain ⟨r0, t', b, resps, hj', -⟩ := h.genuine l a ha
  have := h.one_job hh (k := a.call) (r := r) (r' := r0) (by rw [hj]; rfl) (by rw [hj']; rfl)
  subst this
  rw [hj] at hj'; simp at hj'

theorem Inv.effA (h : Inv cfg s) (hh : Honest cfg) (he : e.Proper) (st : Step cfg s e s') : EffA cfg s s' := by
  cases st with
  | refuse d r cache tick x rest resp h0 hl hc =>
    simp only [Event.Proper] at he
    subst he
    rw [h.accept hh hl] at hc; cases hc
  | collectRun d now x rest tasks' t h0 hl hb hc =>
    refine .same rfl (fun k r => ?_)
    dsimp only
    by_cases hk : k = x.1 ∧ r = x.2
    · obtain ⟨rfl, rfl⟩ := hk
      rw [set2_self, h.fresh (d := d) (by rw [hl]; exact List.mem_cons_self)]; rfl
    · rw [set2_ne _ _ _ _ hk]
  | collectRefuse d now x rest tasks' i er h0 hl hb hc =>
    obtain ⟨mm, hm⟩ := h.known hh hl
    rcases collectorStep_cases (mn := cfg.net.minimalRelayedParcels) (ttl := 5000000000) (now := now) (h.keys hh d) hm with h1 | ⟨t', h1, h2⟩
    · rw [hc] at h1; simp at h1
    · rw [hc] at h1; simp at h1
  | finish k r hd buf t resps h0 hj ho =>
    simp only [Event.Proper] at he
    obtain ⟨rfl, hp⟩ := he
    exact .finish k r t hd resps hp ho hj rfl rfl
  | moveA l l' a rest h0 hl hn hr =>
    have hm : a ∈ s.answers l := by rw [hl]; exact List.mem_cons_self
    have hx := h.placeA l a hm
    have hrt := h.routed l a hm
    refine .move l l' a rest (fun _ _ => rfl) hl rfl ?_ ?_ ?_ ?_ ?_
    · cases l <;> simp only [nextA, Option.some.injEq, reduceCtorEq] at hn <;> subst hn <;> simp only [CallSystem.placeA] at hx ⊢ <;> first | exact hx | exact hx.2.2 | exact hx.1 | exact ⟨trivial, by rw [hx]⟩
    · rintro rfl; cases l <;> simp [nextA] at hn
    · intro h1
      apply hrt
      cases l <;> simp only [nextA, Option.some.injEq, reduceCtorEq] at hn <;> subst hn <;> first | rfl | cases h1
    · intro h1
      cases l <;> simp only [nextA, Option.some.injEq, reduceCtorEq] at hn <;> subst hn <;> first | rfl | cases h1
    · intro h1
      cases l <;> simp only [nextA, Option.some.injEq, reduceCtorEq] at hn <;> subst hn <;> first | rfl | cases h1
  | route r c a rest x h0 hf hl hn hp =>
    have hm : a ∈ s.answers (.incoming r) := by rw [hl]; exact List.mem_cons_self
    have hx : a.relay = r := h.placeA _ a hm
    obtain ⟨y, hy, hu⟩ := h.note hh hm
    rw [hn] at hy; injection hy with hy; subst hy
    obtain ⟨k, hk, hc, hask⟩ := h.pending r _ c hp
    rw [hu] at hk
    have := hh.uuids _ _ hk
    subst this
    subst hx
    exact .move _ _ a rest (fun _ _ => rfl) hl rfl ⟨rfl, hc⟩ (by simp) (fun _ => hask) (fun h1 => by cases h1) (fun h1 => by cases h1)
  | drop r a rest x h0 hf hl hn hp =>
    have hm : a ∈ s.answers (.incoming r) := by rw [hl]; exact List.mem_cons_self
    exact .move _ _ a rest (fun _ _ => rfl) hl rfl (h.placeA (.incoming r) a hm) (by simp) (fun h1 => by cases h1) (fun h1 => by cases h1) (fun h1 => by cases h1)
  | answer c r k a rest h0 hf hl hp =>
    have hm : a ∈ s.answers (.wireC r c) := by rw [hl]; exact List.mem_cons_self
    have hx := h.placeA _ a hm
    rw [h.known_live hh hm] at hp
    injection hp with hp
    exact .move _ _ a rest (fun _ _ => rfl) hl rfl ⟨hx.1, hx.2, hp⟩ (by simp) (fun _ => h.routed _ _ hm rfl) (fun h1 => rfl) (fun h1 => rfl)
  | ignore c r a rest h0 hf hl hp =>
    have hm : a ∈ s.answers (.wireC r c) := by rw [hl]; exact List.mem_cons_self
    rw [h.known_live hh hm] at hp
    cases hp
  | take k cache a rest h0 hw hask hl =>
    have hm : a ∈ s.answers (.queue k) := by rw [hl]; exact List.mem_cons_self
    exact .move _ _ a rest (fun _ _ => rfl) hl rfl (h.placeA (.queue k) a hm) (by simp) (fun _ => h.routed _ _ hm rfl) (fun h1 => rfl) (fun h1 => rfl)
  | _ => exact .same rfl (fun _ _ => rfl)

theorem Inv.alive' (h : Inv cfg s) (hh : Honest cfg) (he : e.Proper) (st : Step cfg s e s') : s'.crashed = false := by
  cases st with
  | checkCrash d r cache tick x rest h0 hl hc =>
    simp only [Event.Proper] at he
    subst he
    rw [h.accept hh hl] at hc; cases hc
  | finishCrash k r hd buf t h0 hj ho =>
    simp only [Event.Proper] at he
    obtain ⟨rfl, hp⟩ := he
    obtain ⟨resps, h1⟩ := h.output hh hj hp
    have := (h1 _).1 ho
    cases this
  | routeCrash r a rest h0 hf hl hn =>
    have hm : a ∈ s.answers (.incoming r) := by rw [hl]; exact List.mem_cons_self
    obtain ⟨y, hy, -⟩ := h.note hh hm
    rw [hn] at hy; cases hy
  | _ => exact h.alive

theorem EffA.placeA (f : EffA cfg s s') (h : Inv cfg s) : ∀ l a, a ∈ s'.answers l → CallSystem.placeA cfg l a := by
  intro l a ha0
  cases f with
  | same ha hd => rw [ha] at ha0; exact h.placeA l a ha0
  | finish k r t b resps hp ho hj hj' ha =>
    rw [ha] at ha0
    by_cases hl : l = .proc k r
    · subst hl
      rw [Function.update_self] at ha0
      obtain ⟨i, -, rfl⟩ := List.mem_map.1 ha0
      exact rfl
    · rw [Function.update_of_ne hl] at ha0; exact h.placeA l a ha0
  | move l1 l2 b rest hd hl ha hpl hne hr hg hq =>
    rw [ha] at ha0
    rcases mem_move hl ha0 with h1 | ⟨rfl, rfl⟩
    · exact h.placeA l a h1
    · exact hpl

theorem EffA.genuine (f : EffA cfg s s') (g : EffH cfg s s') (h : Inv cfg s) : ∀ l a, a ∈ s'.answers l → Genuine cfg s' a := by
  have key : ∀ l a, a ∈ s.answers l → Genuine cfg s' a := by
    intro l a ha
    obtain ⟨r0, t, b, resps, hj, hp, ho, hm⟩ := h.genuine l a ha
    refine ⟨r0, t, b, resps, ?_, hp, ho, hm⟩
    rw [g.done h a.call r0 (by rw [hj]; rfl)]; exact hj
  intro l a ha0
  cases f with
  | same ha hd => rw [ha] at ha0; exact key l a ha0
  | finish k r t b resps hp ho hj hj' ha =>
    rw [ha] at ha0
    by_cases hl : l = .proc k r
    · subst hl
      rw [Function.update_self] at ha0
      obtain ⟨i, -, rfl⟩ := List.mem_map.1 ha0
      exact ⟨r, t, b, resps, by rw [hj', set2_self], hp, ho, rfl⟩
    · rw [Function.update_of_ne hl] at ha0; exact key l a ha0
  | move l1 l2 b rest hd hl ha hpl hne hr hg hq =>
    rw [ha] at ha0
    rcases mem_move hl ha0 with h1 | ⟨rfl, rfl⟩
    · exact key l a h1
    · exact key l1 a (by rw [hl]; exact List.mem_cons_self)

theorem EffA.counts (f : EffA cfg s s') (h : Inv cfg s) (hh : Honest cfg) (k : Fin K) (r : Fin n) :
    cnt (fun a => decide (a.call = k ∧ a.relay = r)) s'.answers = (Finset.univ.filter fun r' => CallSystem.done (s'.jobs k r') = true).card := by
  cases f with
  | same ha hd => rw [ha, h.counts]; simp only [hd k]
  | move l1 l2 b rest hd hl ha hpl hne hr hg hq => rw [ha, cnt_move _ _ _ _ _ _ hl, h.counts]; simp only [hd k]
  | finish k' r' t b resps hp ho hj hj' ha =>
    have hu := pot_update (fun _ (a : Ans K n) => if decide (a.call = k ∧ a.relay = r) = true then 1 else 0) s.answers (.proc k' r')
      ((List.finRange n).map fun i => ⟨k', i, resps i⟩)
    rw [sum_ite_count, sum_ite_count] at hu
    have hold := h.counts k r
    unfold cnt at hold ⊢
    rw [ha]
    have hempty : s.answers (.proc k' r') = [] := by
      cases hc : s.answers (.proc k' r') with
      | nil => rfl
      | cons a l =>
        have hm : a ∈ s.answers (.proc k' r') := by rw [hc]; exact List.mem_cons_self
        exact absurd (h.placeA _ a hm) (h.no_answers hh hj hm)
    rw [hempty, List.countP_nil, Nat.add_zero] at hu
    rw [hu, hold]
    by_cases hk : k = k'
    · subst hk
      have h1 : (Finset.univ.filter fun r' => CallSystem.done (s.jobs k r') = true) = ∅ := by
        apply Finset.filter_eq_empty_iff.2
        intro r0 _ hd0
        have := h.one_job hh (k := k) (r := r') (r' := r0) (by rw [hj]; rfl) (done_isSome hd0)
        subst this
        rw [hj] at hd0; cases hd0
      have h2 : (Finset.univ.filter fun r0 => CallSystem.done (s'.jobs k r0) = true) = {r'} := by
        ext r0
        simp only [Finset.mem_filter, Finset.mem_univ, true_and, Finset.mem_singleton]
        constructor
        · intro hd0
          by_contra hc
          rw [hj', set2_ne _ _ _ _ (fun hcc => hc hcc.2)] at hd0
          have := h.one_job hh (k := k) (r := r') (r' := r0) (by rw [hj]; rfl) (done_isSome hd0)
          exact hc this.symm
        · rintro rfl
          rw [hj', set2_self]; rfl
      rw [h1, h2, Finset.card_empty, Finset.card_singleton, Nat.zero_add, List.countP_map]
      have : (fun (a : Ans K n) => decide (a.call = k ∧ a.relay = r)) ∘ (fun i => (⟨k, i, resps i⟩ : Ans K n)) = fun i => i == r := by
        funext i; rw [Bool.eq_iff_iff]; simp
      rw [this]
      exact List.count_eq_one_of_mem (List.nodup_finRange n) (List.mem_finRange r)
    · have h1 : ((List.finRange n).map fun i => (⟨k', i, resps i⟩ : Ans K n)).countP (fun a => decide (a.call = k ∧ a.relay = r)) = 0 := by
        rw [List.countP_eq_zero]
        intro a ha'
        obtain ⟨i, -, rfl⟩ := List.mem_map.1 ha'
        have hk' : ¬ k' = k := fun e => hk e.symm
        simp [hk']
      rw [h1, Nat.add_zero]
      congr 1
      ext r0
      simp only [Finset.mem_filter, Finset.mem_univ, true_and]
      rw [hj', set2_ne _ _ _ _ (fun hcc => hk hcc.1)]

theorem EffA.routed (f : EffA cfg s s') (g : EffP cfg s s') (h : Inv cfg s) : ∀ l a, a ∈ s'.answers l → CallSystem.routed l = true → CallSystem.asked s' a.call a.relay := by
  intro l a ha0 hrt
  cases f with
  | same ha hd => rw [ha] at ha0; exact g.asked h (h.routed l a ha0 hrt)
  | finish k r t b resps hp ho hj hj' ha =>
    rw [ha] at ha0
    by_cases hl : l = .proc k r
    · subst hl; cases hrt
    · rw [Function.update_of_ne hl] at ha0; exact g.asked h (h.routed l a ha0 hrt)
  | move l1 l2 b rest hd hl ha hpl hne hr hg hq =>
    rw [ha] at ha0
    rcases mem_move hl ha0 with h1 | ⟨rfl, rfl⟩
    · exact g.asked h (h.routed l a h1 hrt)
    · exact g.asked h (hr hrt)

/-- The client never loses a response. -/
theorem EffA.got (f : EffA cfg s s') {l : ALoc K m n} {a : Ans K n} (ha0 : a ∈ s.answers l) (hg0 : CallSystem.got l = true) :
    ∃ l', a ∈ s'.answers l' ∧ CallSystem.got l' = true := by
  cases f with
  | same ha hd => exact ⟨l, by rw [ha]; exact ha0, hg0⟩
  | finish k r t b resps hp ho hj hj' ha =>
    refine ⟨l, ?_, hg0⟩
    rw [ha, Function.update_of_ne]
    · exact ha0
    · rintro rfl; cases hg0
  | move l1 l2 b rest hd hl ha hpl hne hr hg hq =>
    by_cases h1 : l = l1
    · subst h1
      rw [hl] at ha0
      rcases List.mem_cons.1 ha0 with rfl | h2
      · exact ⟨l2, by rw [ha, move_to hne.symm]; simp, hg hg0⟩
      · exact ⟨l, by rw [ha, move_from hne]; exact h2, hg0⟩
    · by_cases h2 : l = l2
      · subst h2
        exact ⟨l, by rw [ha, move_to hne.symm]; exact List.mem_append_left _ ha0, hg0⟩
      · exact ⟨l, by rw [ha, move_other h1 h2]; exact ha0, hg0⟩

/-- A routed response is not lost. -/
theorem EffA.stays_routed (f : EffA cfg s s') {l : ALoc K m n} {a : Ans K n} (ha0 : a ∈ s.answers l) (hg0 : CallSystem.routed l = true) :
    ∃ l', a ∈ s'.answers l' ∧ CallSystem.routed l' = true := by
  cases f with
  | same ha hd => exact ⟨l, by rw [ha]; exact ha0, hg0⟩
  | finish k r t b resps hp ho hj hj' ha =>
    refine ⟨l, ?_, hg0⟩
    rw [ha, Function.update_of_ne]
    · exact ha0
    · rintro rfl; cases hg0
  | move l1 l2 b rest hd hl ha hpl hne hr hg hq =>
    by_cases h1 : l = l1
    · subst h1
      rw [hl] at ha0
      rcases List.mem_cons.1 ha0 with rfl | h2
      · exact ⟨l2, by rw [ha, move_to hne.symm]; simp, hq hg0⟩
      · exact ⟨l, by rw [ha, move_from hne]; exact h2, hg0⟩
    · by_cases h2 : l = l2
      · subst h2
        exact ⟨l, by rw [ha, move_to hne.symm]; exact List.mem_append_left _ ha0, hg0⟩
      · exact ⟨l, by rw [ha, move_other h1 h2]; exact ha0, hg0⟩

end Resmix.Rrpc.CallSystem
